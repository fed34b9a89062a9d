import Verif.Spec.Document
import Verif.Lemmas.Basic
set_option linter.unusedSimpArgs false
/-! Lemmas about the reading of configuration documents. -/
namespace Verif
open Spec Doc

/-! ## Fields of objects -/

theorem entry?_given (m : List (Text × Doc)) (key : String) (d : Doc) :
    entry? m key.toList = some (some d) ↔ Gives m key d := by
  unfold entry? Gives
  constructor
  · intro h
    split at h
    · cases h
    · rename_i e he
      cases h
      have hmem : e ∈ m.filter (fun e => e.1 = key.toList) := by rw [he]; exact List.mem_singleton.2 rfl
      have hk : e.1 = key.toList := by simpa using (List.mem_filter.1 hmem).2
      obtain ⟨pre, post, hm⟩ := List.append_of_mem (List.mem_filter.1 hmem).1
      refine ⟨pre, post, by rw [hm, ← hk], ?_⟩
      rw [hm, List.filter_append, List.filter_cons_of_pos (by simp [hk])] at he
      have h1 : pre.filter (fun e => decide (e.1 = key.toList)) = [] := by
        cases hp : pre.filter (fun e => decide (e.1 = key.toList)) with
        | nil => rfl
        | cons x xs =>
          rw [hp] at he
          have := congrArg List.length he
          simp at this
      rw [h1, List.nil_append] at he
      have h2 := (List.cons.inj he).2
      intro x hx hxk
      cases List.mem_append.1 hx with
      | inl hx => exact List.filter_eq_nil_iff.1 h1 x hx (by simp [hxk])
      | inr hx => exact List.filter_eq_nil_iff.1 h2 x hx (by simp [hxk])
    · cases h
  · intro ⟨pre, post, hm, hn⟩
    have : m.filter (fun e => e.1 = key.toList) = [(key.toList, d)] := by
      rw [hm, List.filter_append, List.filter_cons_of_pos (by simp)]
      rw [List.filter_eq_nil_iff.2 (fun x hx => by simpa using hn x (List.mem_append_left _ hx)),
        List.filter_eq_nil_iff.2 (fun x hx => by simpa using hn x (List.mem_append_right _ hx))]
      rfl
    rw [this]

theorem entry?_missing (m : List (Text × Doc)) (key : String) : entry? m key.toList = some none ↔ Lacks m key := by
  unfold entry? Lacks
  constructor
  · intro h
    split at h
    · rename_i he
      intro e hm hk
      exact List.filter_eq_nil_iff.1 he e hm (by simp [hk])
    · cases h
    · cases h
  · intro h
    rw [List.filter_eq_nil_iff.2 (fun x hx => by simpa using h x hx)]

theorem required_iff {α : Type} (m : List (Text × Doc)) (key : String) (read : Doc → Option α) (a : α) :
    required m key.toList read = some a ↔ ∃ d, Gives m key d ∧ read d = some a := by
  unfold required
  constructor
  · intro h
    split at h
    · rename_i d hd
      exact ⟨d, (entry?_given ..).1 hd, h⟩
    · cases h
  · intro ⟨d, hd, h⟩
    rw [(entry?_given ..).2 hd]
    exact h

theorem defaulted_iff {α : Type} (m : List (Text × Doc)) (key : String) (fallback : α) (read : Doc → Option α) (a : α) :
    defaulted m key.toList fallback read = some a ↔
      (∃ d, Gives m key d ∧ read d = some a) ∨ Lacks m key ∧ a = fallback := by
  unfold defaulted
  constructor
  · intro h
    split at h
    · rename_i d hd
      exact .inl ⟨d, (entry?_given ..).1 hd, h⟩
    · rename_i hd
      exact .inr ⟨(entry?_missing ..).1 hd, (Option.some.inj h).symm⟩
    · cases h
  · rintro (⟨d, hd, h⟩ | ⟨hd, rfl⟩)
    · rw [(entry?_given ..).2 hd]
      exact h
    · rw [(entry?_missing ..).2 hd]

theorem optional_iff {α : Type} (m : List (Text × Doc)) (key : String) (read : Doc → Option α)
    (hnull : read .null = none) (a : Option α) :
    Doc.optional m key.toList read = some a ↔
      match a with
      | some a => ∃ d, Gives m key d ∧ read d = some a
      | none => Lacks m key ∨ Gives m key .null := by
  unfold Doc.optional
  constructor
  · intro h
    split at h
    · rename_i hd
      cases h
      exact .inr ((entry?_given ..).1 hd)
    · rename_i d hne hd
      cases hr : read d with
      | none => rw [hr] at h; cases h
      | some v =>
        rw [hr] at h
        cases h
        exact ⟨d, (entry?_given ..).1 hd, hr⟩
    · rename_i hd
      cases h
      exact .inl ((entry?_missing ..).1 hd)
    · cases h
  · intro h
    cases a with
    | some a =>
      obtain ⟨d, hd, h⟩ := h
      rw [(entry?_given ..).2 hd]
      cases d with
      | null => rw [hnull] at h; cases h
      | _ => simp [h]
    | none =>
      rcases h with h | h
      · rw [(entry?_missing ..).2 h]
      · rw [(entry?_given ..).2 h]

/-! ## Values -/

theorem text_iff (d : Doc) (t : Text) : text d = some t ↔ d = .str t := by
  cases d <;> simp [text]

theorem flag_iff (d : Doc) (b : Bool) : flag d = some b ↔ d = .bool b := by
  cases d <;> simp [flag]

theorem record_iff {α : Type} (read : List (Text × Doc) → Option α) (d : Doc) (a : α) :
    record read d = some a ↔ ∃ m, d = .obj m ∧ read m = some a := by
  cases d <;> simp [record]

theorem each_cons {α : Type} (read : Doc → Option α) (d : Doc) (ds : List Doc) (as : List α) :
    each read (d :: ds) = some as ↔ ∃ a l, as = a :: l ∧ read d = some a ∧ each read ds = some l := by
  rw [each]
  constructor
  · intro h
    split at h
    · rename_i a l ha hl
      exact ⟨a, l, (Option.some.inj h).symm, ha, hl⟩
    · cases h
  · rintro ⟨a, l, rfl, ha, hl⟩
    rw [ha, hl]

theorem each_text (l : List Doc) (ts : List Text) : each text l = some ts ↔ l = ts.map .str := by
  induction l generalizing ts with
  | nil =>
    constructor
    · intro h
      cases h
      rfl
    · intro h
      cases ts with
      | nil => rfl
      | cons => cases h
  | cons d ds ih =>
    rw [each_cons]
    constructor
    · rintro ⟨a, l, rfl, ha, hl⟩
      rw [(text_iff ..).1 ha, (ih l).1 hl]
      rfl
    · intro h
      cases ts with
      | nil => cases h
      | cons t ts =>
        obtain ⟨hd, hds⟩ := List.cons.inj h
        exact ⟨t, ts, rfl, (text_iff ..).2 hd, (ih ts).2 hds⟩

theorem texts_iff (d : Doc) (ts : List Text) : texts d = some ts ↔ d = .arr (ts.map .str) := by
  cases d with
  | arr l =>
    show each text l = some ts ↔ _
    rw [each_text]
    constructor
    · rintro rfl; rfl
    · intro h; exact Doc.arr.inj h
  | _ => constructor <;> intro h <;> cases h

theorem list_iff {α : Type} (read : Doc → Option α) (Is : List (Text × Doc) → α → Prop)
    (h : ∀ d a, read d = some a ↔ ∃ m, d = .obj m ∧ Is m a) (d : Doc) (as : List α) :
    list read d = some as ↔ ∃ l, d = .arr l ∧ Objects Is l as := by
  have he : ∀ l as, each read l = some as ↔ Objects Is l as := by
    intro l
    induction l with
    | nil =>
      intro as
      constructor
      · intro h
        cases h
        exact .nil
      · intro h
        cases h
        rfl
    | cons d ds ih =>
      intro as
      rw [each_cons]
      constructor
      · rintro ⟨a, l, rfl, ha, hl⟩
        obtain ⟨m, rfl, hm⟩ := (h ..).1 ha
        exact .cons hm ((ih l).1 hl)
      · intro ho
        cases ho with
        | cons hm hl => exact ⟨_, _, rfl, (h ..).2 ⟨_, rfl, hm⟩, (ih _).2 hl⟩
  cases d with
  | arr l =>
    show each read l = some as ↔ _
    rw [he]
    constructor
    · intro h; exact ⟨l, rfl, h⟩
    · rintro ⟨l', hl, h⟩
      cases hl
      exact h
  | _ =>
    constructor
    · intro h; cases h
    · rintro ⟨_, hl, _⟩; cases hl

theorem word_cons {α : Type} (w : String) (v : α) (ws : List (String × α)) (d : Doc) (a : α) :
    word ((w, v) :: ws) d = some a ↔ d = .str w.toList ∧ a = v ∨ d ≠ .str w.toList ∧ word ws d = some a := by
  cases d with
  | str t =>
    by_cases h : w.toList = t
    · subst h
      simp only [word, List.find?, decide_true, Option.map_some, Option.some.injEq, true_and, ne_eq,
        not_true_eq_false, false_and, or_false]
      exact eq_comm
    · have hne : Doc.str t ≠ .str w.toList := fun e => h (Doc.str.inj e).symm
      simp [word, List.find?, h, hne]
  | _ => simp [word]

theorem word_nil {α : Type} (d : Doc) (a : α) : word ([] : List (String × α)) d = some a ↔ False := by
  cases d <;> simp [word]

theorem str_inj (a b : String) : Doc.str a.toList = .str b.toList ↔ a = b := by
  constructor
  · intro h
    exact String.toList_inj.1 (Doc.str.inj h)
  · rintro rfl; rfl

theorem serviceType_iff (d : Doc) (t : ServiceType) : serviceType d = some t ↔ d = .str (typeWord t).toList := by
  unfold serviceType
  simp only [word_cons, word_nil, and_false, or_false]
  constructor
  · rintro (⟨rfl, rfl⟩ | ⟨_, ⟨rfl, rfl⟩ | ⟨_, ⟨rfl, rfl⟩ | ⟨_, ⟨rfl, rfl⟩ | ⟨_, ⟨rfl, rfl⟩ | ⟨_, rfl, rfl⟩⟩⟩⟩⟩) <;> rfl
  · rintro rfl
    cases t <;> simp [typeWord, str_inj]

theorem failureMode_iff (d : Doc) (b : Bool) :
    failureMode d = some b ↔ d = .str (if b then "deny" else "allow").toList := by
  unfold failureMode
  simp only [word_cons, word_nil, and_false, or_false]
  constructor
  · rintro (⟨rfl, rfl⟩ | ⟨_, rfl, rfl⟩) <;> rfl
  · rintro rfl
    cases b <;> simp [str_inj]

theorem execution_iff (d : Doc) (b : Bool) :
    execution d = some b ↔ d = .str (if b then "sequential" else "parallel").toList := by
  unfold execution
  simp only [word_cons, word_nil, and_false, or_false]
  constructor
  · rintro (⟨rfl, rfl⟩ | ⟨_, rfl, rfl⟩) <;> rfl
  · rintro rfl
    cases b <;> simp [str_inj]

theorem target_iff (d : Doc) (t : Target) :
    target d = some t ↔ d = .str (match t with | .request => "request" | .response => "response").toList := by
  unfold target
  simp only [word_cons, word_nil, and_false, or_false]
  constructor
  · rintro (⟨rfl, rfl⟩ | ⟨_, rfl, rfl⟩) <;> rfl
  · rintro rfl
    cases t <;> simp [str_inj]

def kindWord : Kind → String
  | .grpc => "grpc"
  | .deny => "deny"
  | .headers => "headers"
  | .store => "store"
  | .fail => "fail"

theorem kind_iff (d : Doc) (k : Kind) : kind d = some k ↔ d = .str (kindWord k).toList := by
  unfold kind
  simp only [word_cons, word_nil, and_false, or_false]
  constructor
  · rintro (⟨rfl, rfl⟩ | ⟨_, ⟨rfl, rfl⟩ | ⟨_, ⟨rfl, rfl⟩ | ⟨_, ⟨rfl, rfl⟩ | ⟨_, rfl, rfl⟩⟩⟩⟩) <;> rfl
  · rintro rfl
    cases k <;> simp [kindWord, str_inj]

theorem timeout_iff (duration : Text → Option Int) (d : Doc) (n : Nat) :
    timeout duration d = some n ↔ ∃ t, d = .str t ∧ duration t = some (n : Int) := by
  cases d with
  | str t =>
    unfold timeout
    constructor
    · intro h
      refine ⟨t, rfl, ?_⟩
      simp only at h
      split at h
      · rename_i i hi
        split at h
        · rename_i hpos
          rw [hi, ← Option.some.inj h, Int.toNat_of_nonneg hpos]
        · cases h
      · cases h
    · rintro ⟨t', ht, h⟩
      cases ht
      simp only [h]
      simp
  | _ => simp [timeout]

/-! ## Field by field -/

theorem required_text (m : List (Text × Doc)) (key : String) (t : Text) :
    required m key.toList text = some t ↔ GivesText m key t := by
  rw [required_iff]
  constructor
  · rintro ⟨d, hd, h⟩
    rw [(text_iff ..).1 h] at hd
    exact hd
  · intro h
    exact ⟨_, h, rfl⟩

theorem defaulted_texts (m : List (Text × Doc)) (key : String) (ts : List Text) :
    defaulted m key.toList [] texts = some ts ↔ GivesTexts m key ts := by
  rw [defaulted_iff]
  unfold GivesTexts
  constructor
  · rintro (⟨d, hd, h⟩ | h)
    · rw [(texts_iff ..).1 h] at hd
      exact .inl hd
    · exact .inr h
  · rintro (h | h)
    · exact .inl ⟨_, h, (texts_iff ..).2 rfl⟩
    · exact .inr h

theorem defaulted_flag (m : List (Text × Doc)) (key : String) (otherwise b : Bool) :
    defaulted m key.toList otherwise flag = some b ↔ GivesFlag m key otherwise b := by
  rw [defaulted_iff]
  unfold GivesFlag
  constructor
  · rintro (⟨d, hd, h⟩ | h)
    · rw [(flag_iff ..).1 h] at hd
      exact .inl hd
    · exact .inr h
  · rintro (h | h)
    · exact .inl ⟨_, h, rfl⟩
    · exact .inr h

theorem optional_text (m : List (Text × Doc)) (key : String) (t : Option Text) :
    Doc.optional m key.toList text = some t ↔ MayGiveText m key t := by
  rw [optional_iff m key text rfl]
  cases t with
  | some t =>
    simp only [MayGiveText]
    constructor
    · rintro ⟨d, hd, h⟩
      rw [(text_iff ..).1 h] at hd
      exact hd
    · intro h
      exact ⟨_, h, rfl⟩
  | none => rfl

theorem defaulted_objects {α : Type} (read : Doc → Option α) (Is : List (Text × Doc) → α → Prop)
    (h : ∀ d a, read d = some a ↔ ∃ m, d = .obj m ∧ Is m a) (m : List (Text × Doc)) (key : String) (as : List α) :
    defaulted m key.toList [] (list read) = some as ↔ GivesObjects Is m key as := by
  rw [defaulted_iff]
  unfold GivesObjects
  constructor
  · rintro (⟨d, hd, hr⟩ | hr)
    · obtain ⟨l, rfl, ho⟩ := (list_iff read Is h ..).1 hr
      exact .inl ⟨l, hd, ho⟩
    · exact .inr hr
  · rintro (⟨l, hd, ho⟩ | hr)
    · exact .inl ⟨_, hd, (list_iff read Is h ..).2 ⟨l, rfl, ho⟩⟩
    · exact .inr hr

theorem gives_unique {m : List (Text × Doc)} {key : String} {d d' : Doc} (h : Gives m key d) (h' : Gives m key d') :
    d = d' := by
  have h1 := (entry?_given ..).2 h
  rw [(entry?_given ..).2 h'] at h1
  exact (Option.some.inj (Option.some.inj h1)).symm

theorem gives_lacks {m : List (Text × Doc)} {key : String} {d : Doc} (h : Gives m key d) (h' : Lacks m key) : False := by
  have h1 := (entry?_given ..).2 h
  rw [(entry?_missing ..).2 h'] at h1
  cases h1

/-! ## Services -/

theorem service_iff (duration : Text → Option Int) (d : Doc) (s : ServiceConfig) :
    service duration d = some s ↔ ∃ m, d = .obj m ∧ IsService duration m s := by
  unfold service
  rw [record_iff]
  constructor
  · rintro ⟨m, rfl, h⟩
    refine ⟨m, rfl, ?_⟩
    split at h
    · rename_i type endpoint deny to gs gm h1 h2 h3 h4 h5 h6
      cases h
      refine ⟨?_, (required_text ..).1 h2, ?_, ?_, (optional_text ..).1 h5, (optional_text ..).1 h6⟩
      · obtain ⟨d, hd, h1⟩ := (required_iff ..).1 h1
        rw [(serviceType_iff ..).1 h1] at hd
        exact hd
      · obtain ⟨d, hd, h3⟩ := (required_iff ..).1 h3
        rw [(failureMode_iff ..).1 h3] at hd
        exact hd
      · rcases (defaulted_iff ..).1 h4 with ⟨d, hd, h4⟩ | h4
        · obtain ⟨t, rfl, ht⟩ := (timeout_iff ..).1 h4
          exact .inl ⟨t, hd, ht⟩
        · exact .inr h4
    · cases h
  · rintro ⟨m, rfl, h⟩
    refine ⟨m, rfl, ?_⟩
    have h1 := (required_iff ..).2 ⟨_, h.type, (serviceType_iff ..).2 rfl⟩
    have h3 := (required_iff ..).2 ⟨_, h.failureMode, (failureMode_iff ..).2 rfl⟩
    have h4 : defaulted m "timeout".toList defaultTimeout (timeout duration) = some s.timeout := by
      refine (defaulted_iff ..).2 ?_
      rcases h.timeout with ⟨t, ht, hd⟩ | hl
      · exact .inl ⟨_, ht, (timeout_iff ..).2 ⟨t, rfl, hd⟩⟩
      · exact .inr hl
    rw [h1, (required_text ..).2 h.endpoint, h3, h4, (optional_text ..).2 h.grpcService,
      (optional_text ..).2 h.grpcMethod]

/-! ## Typed actions -/

theorem typedHead_iff (m : List (Text × Doc)) (h : TypedHead) : typedHead m = some h ↔ IsHead m h := by
  unfold typedHead
  constructor
  · intro hr
    split at hr
    · rename_i p t g s src h1 h2 h3 h4 h5
      cases hr
      refine ⟨(required_text ..).1 h1, ?_, (defaulted_flag ..).1 h3, ?_, src, (defaulted_texts ..).1 h5⟩
      · obtain ⟨d, hd, h2⟩ := (required_iff ..).1 h2
        rw [(flag_iff ..).1 h2] at hd
        exact hd
      · rcases (defaulted_iff ..).1 h4 with ⟨d, hd, h4⟩ | h4
        · rw [(execution_iff ..).1 h4] at hd
          exact .inl hd
        · exact .inr h4
    · cases hr
  · intro hi
    obtain ⟨src, hsrc⟩ := hi.sources
    have h2 := (required_iff m "terminal" flag h.terminal).2 ⟨_, hi.terminal, rfl⟩
    have h4 : defaulted m "execution".toList false execution = some h.sequential := by
      refine (defaulted_iff ..).2 ?_
      rcases hi.execution with h4 | h4
      · exact .inl ⟨_, h4, (execution_iff ..).2 rfl⟩
      · exact .inr h4
    rw [(required_text ..).2 hi.predicate, h2, (defaulted_flag ..).2 hi.guard, h4, (defaulted_texts ..).2 hsrc]

/-- The value of an entry as a list of typed actions. -/
def typedList : Doc → Option (List TypedAction)
  | .arr l => typedEach l
  | _ => none

theorem replyTable_eq (m : List (Text × Doc)) : replyTable m = m.map fun e => typedList e.2 := by
  induction m with
  | nil => rfl
  | cons e m ih =>
    obtain ⟨k, d⟩ := e
    rw [replyTable, ih, List.map_cons]
    congr 1
    cases d <;> rfl

theorem zip_filter {β : Type} (f : Doc → β) (p : Text → Bool) (m : List (Text × Doc)) :
    ((m.map Prod.fst).zip (m.map fun e => f e.2)).filter (fun e => p e.1) =
      (m.filter (fun e => p e.1)).map fun e => (e.1, f e.2) := by
  induction m with
  | nil => rfl
  | cons e m ih =>
    simp only [List.map_cons, List.zip_cons_cons, List.filter_cons]
    split <;> simp [ih]

theorem replies_eq (m : List (Text × Doc)) :
    replies? m (replyTable m) = defaulted m "onReply".toList [] typedList := by
  unfold replies? defaulted entry?
  rw [replyTable_eq, zip_filter typedList (fun k => decide (k = "onReply".toList))]
  generalize m.filter (fun e => decide (e.1 = "onReply".toList)) = l
  match l with
  | [] => rfl
  | [e] => rfl
  | a :: b :: l => rfl

theorem typedEach_eq (l : List Doc) : typedEach l = each typed l := by
  induction l with
  | nil => rfl
  | cons d ds ih =>
    rw [typedEach, each, ih]
    cases typed d <;> cases each typed ds <;> rfl

theorem typed_obj (m : List (Text × Doc)) : typed (.obj m) = typedOf m (replyTable m) := by rw [typed]

theorem typedOf_given (m : List (Text × Doc)) (a : TypedAction) (h : typedOf m (replyTable m) = some a)
    (ih : ∀ l as, Gives m "onReply" (.arr l) → typedEach l = some as → AreTyped l as) : IsTyped m a := by
  unfold typedOf at h
  split at h
  · rename_i head h1 h2
    have hh := (typedHead_iff ..).1 h1
    obtain ⟨d, hd, h2⟩ := (required_iff ..).1 h2
    rw [(kind_iff ..).1 h2] at hd
    split at h
    · rename_i var service message onReply label h3 h4 h5 h6 h7
      cases h
      have hlabel : Lacks m "label" ∨ ∃ t, GivesText m "label" t := by
        rcases (defaulted_iff ..).1 h7 with ⟨d, hd, h7⟩ | h7
        · rw [(text_iff ..).1 h7] at hd
          exact .inr ⟨_, hd⟩
        · exact .inl h7.1
      rw [replies_eq] at h6
      rcases (defaulted_iff ..).1 h6 with ⟨d', hd', h6⟩ | ⟨hlack, rfl⟩
      · cases d' with
        | arr l =>
          exact .call hh hd ((required_text ..).1 h4) ((required_text ..).1 h3) ((required_text ..).1 h5) hlabel hd'
            (ih l _ hd' h6)
        | _ => cases h6
      · exact .callOnly hh hd ((required_text ..).1 h4) ((required_text ..).1 h3) ((required_text ..).1 h5) hlabel hlack
    · cases h
  · rename_i head h1 h2
    have hh := (typedHead_iff ..).1 h1
    obtain ⟨d, hd, h2⟩ := (required_iff ..).1 h2
    rw [(kind_iff ..).1 h2] at hd
    split at h
    · rename_i dw h3
      cases h
      exact .deny hh hd ((required_text ..).1 h3)
    · cases h
  · rename_i head h1 h2
    have hh := (typedHead_iff ..).1 h1
    obtain ⟨d, hd, h2⟩ := (required_iff ..).1 h2
    rw [(kind_iff ..).1 h2] at hd
    split at h
    · rename_i t v h3 h4
      cases h
      obtain ⟨d', hd', h3⟩ := (required_iff ..).1 h3
      rw [(target_iff ..).1 h3] at hd'
      exact .headers hh hd hd' ((required_text ..).1 h4)
    · cases h
  · rename_i head h1 h2
    have hh := (typedHead_iff ..).1 h1
    obtain ⟨d, hd, h2⟩ := (required_iff ..).1 h2
    rw [(kind_iff ..).1 h2] at hd
    split at h
    · rename_i p v x h3 h4 h5
      cases h
      exact .store hh hd ((required_text ..).1 h3) ((required_text ..).1 h4) ((defaulted_flag ..).1 h5)
    · cases h
  · rename_i head h1 h2
    have hh := (typedHead_iff ..).1 h1
    obtain ⟨d, hd, h2⟩ := (required_iff ..).1 h2
    rw [(kind_iff ..).1 h2] at hd
    split at h
    · rename_i t h3
      cases h
      exact .fail hh hd ((required_text ..).1 h3)
    · cases h
  · cases h

theorem gives_mem {m : List (Text × Doc)} {key : String} {d : Doc} (h : Gives m key d) : (key.toList, d) ∈ m := by
  obtain ⟨pre, post, rfl, _⟩ := h
  simp

mutual
theorem typed_sound : ∀ (d : Doc) (a : TypedAction), typed d = some a → ∃ m, d = .obj m ∧ IsTyped m a
  | .obj m, a, h => by
    rw [typed_obj] at h
    exact ⟨m, rfl, typedOf_given m a h fun l as hg hl => entries_sound m l as (gives_mem hg) hl⟩
  | .null, _, h => by cases h
  | .bool _, _, h => by cases h
  | .num _, _, h => by cases h
  | .str _, _, h => by cases h
  | .arr _, _, h => by cases h

theorem entries_sound : ∀ (m : List (Text × Doc)) (l : List Doc) (as : List TypedAction) {k : Text},
    (k, .arr l) ∈ m → typedEach l = some as → AreTyped l as
  | [], _, _, _, h, _ => (nomatch h)
  | e :: m, l, as, k, h, hl => by
    rcases List.mem_cons.1 h with h | h
    · exact entry_sound e k l h.symm as hl
    · exact entries_sound m l as h hl

theorem entry_sound : ∀ (e : Text × Doc) (k : Text) (l : List Doc), e = (k, .arr l) →
    ∀ as, typedEach l = some as → AreTyped l as
  | (_, .arr l), _, _, h, as, hl => by
    cases h
    exact each_sound l as hl
  | (_, .null), _, _, h, _, _ => by cases h
  | (_, .bool _), _, _, h, _, _ => by cases h
  | (_, .num _), _, _, h, _, _ => by cases h
  | (_, .str _), _, _, h, _, _ => by cases h
  | (_, .obj _), _, _, h, _, _ => by cases h

theorem each_sound : ∀ (l : List Doc) (as : List TypedAction), typedEach l = some as → AreTyped l as
  | [], as, h => by
    cases h
    exact .nil
  | d :: ds, as, h => by
    rw [typedEach] at h
    split at h
    · rename_i a l ha hl
      cases h
      obtain ⟨m, rfl, hm⟩ := typed_sound d a ha
      exact .cons hm (each_sound ds l hl)
    · cases h
end

mutual
theorem typed_complete : ∀ {m : List (Text × Doc)} {a : TypedAction}, IsTyped m a → typed (.obj m) = some a
  | m, _, .call (h := h) hh ht hs hv hm hl hr has => by
    have ih := each_complete has
    rw [typed_obj, typedOf, (typedHead_iff ..).2 hh,
      (required_iff ..).2 ⟨_, ht, (kind_iff _ .grpc).2 rfl⟩, replies_eq]
    simp only
    rw [(required_text ..).2 hs, (required_text ..).2 hv, (required_text ..).2 hm,
      (defaulted_iff m "onReply" [] typedList _).2 (.inl ⟨_, hr, ih⟩)]
    rcases hl with hl | ⟨t, hl⟩
    · rw [(defaulted_iff m "label" [] text []).2 (.inr ⟨hl, rfl⟩)]
    · rw [(defaulted_iff m "label" [] text t).2 (.inl ⟨_, hl, rfl⟩)]
  | m, _, .callOnly hh ht hs hv hm hl hr => by
    rw [typed_obj, typedOf, (typedHead_iff ..).2 hh,
      (required_iff ..).2 ⟨_, ht, (kind_iff _ .grpc).2 rfl⟩, replies_eq]
    simp only
    rw [(required_text ..).2 hs, (required_text ..).2 hv, (required_text ..).2 hm,
      (defaulted_iff m "onReply" [] typedList []).2 (.inr ⟨hr, rfl⟩)]
    rcases hl with hl | ⟨t, hl⟩
    · rw [(defaulted_iff m "label" [] text []).2 (.inr ⟨hl, rfl⟩)]
    · rw [(defaulted_iff m "label" [] text t).2 (.inl ⟨_, hl, rfl⟩)]
  | m, _, .deny hh ht hd => by
    rw [typed_obj, typedOf, (typedHead_iff ..).2 hh, (required_iff ..).2 ⟨_, ht, (kind_iff _ .deny).2 rfl⟩]
    simp only
    rw [(required_text ..).2 hd]
  | m, _, .headers hh ht hg hv => by
    rw [typed_obj, typedOf, (typedHead_iff ..).2 hh, (required_iff ..).2 ⟨_, ht, (kind_iff _ .headers).2 rfl⟩]
    simp only
    rw [(required_iff ..).2 ⟨_, hg, (target_iff ..).2 rfl⟩, (required_text ..).2 hv]
  | m, _, .store hh ht hp hv hx => by
    rw [typed_obj, typedOf, (typedHead_iff ..).2 hh, (required_iff ..).2 ⟨_, ht, (kind_iff _ .store).2 rfl⟩]
    simp only
    rw [(required_text ..).2 hp, (required_text ..).2 hv, (defaulted_flag ..).2 hx]
  | m, _, .fail hh ht hl => by
    rw [typed_obj, typedOf, (typedHead_iff ..).2 hh, (required_iff ..).2 ⟨_, ht, (kind_iff _ .fail).2 rfl⟩]
    simp only
    rw [(required_text ..).2 hl]

theorem each_complete : ∀ {l : List Doc} {as : List TypedAction}, AreTyped l as → typedEach l = some as
  | _, _, .nil => rfl
  | _, _, .cons hm hl => by
    rw [typedEach, typed_complete hm, each_complete hl]
end

theorem typed_iff (d : Doc) (a : TypedAction) : typed d = some a ↔ ∃ m, d = .obj m ∧ IsTyped m a := by
  constructor
  · exact typed_sound d a
  · rintro ⟨m, rfl, h⟩
    exact typed_complete h

/-! ## Legacy actions -/

theorem keyAndValue_iff (d : Doc) (e : Text × Text) :
    keyAndValue d = some e ↔ ∃ m, d = .obj m ∧ GivesText m "key" e.1 ∧ GivesText m "value" e.2 := by
  unfold keyAndValue
  rw [record_iff]
  constructor
  · rintro ⟨m, rfl, h⟩
    refine ⟨m, rfl, ?_⟩
    split at h
    · rename_i k v h1 h2
      cases h
      exact ⟨(required_text ..).1 h1, (required_text ..).1 h2⟩
    · cases h
  · rintro ⟨m, rfl, h1, h2⟩
    refine ⟨m, rfl, ?_⟩
    rw [(required_text ..).2 h1, (required_text ..).2 h2]

theorem dataItem_iff (d : Doc) (i : Legacy.DataItem) : dataItem d = some i ↔ ∃ m, d = .obj m ∧ IsItem m i := by
  unfold dataItem
  rw [record_iff]
  constructor
  · rintro ⟨m, rfl, h⟩
    refine ⟨m, rfl, ?_⟩
    split at h
    · rename_i key d
      split at h
      · rename_i hk
        subst hk
        cases he : keyAndValue d with
        | none => rw [he] at h; cases h
        | some e =>
          rw [he] at h
          cases h
          obtain ⟨m, rfl, h1, h2⟩ := (keyAndValue_iff ..).1 he
          exact .static h1 h2
      · split at h
        · rename_i hk
          subst hk
          cases he : keyAndValue d with
          | none => rw [he] at h; cases h
          | some e =>
            rw [he] at h
            cases h
            obtain ⟨m, rfl, h1, h2⟩ := (keyAndValue_iff ..).1 he
            exact .expression h1 h2
        · cases h
    · cases h
  · rintro ⟨m, rfl, h⟩
    refine ⟨m, rfl, ?_⟩
    cases h with
    | static h1 h2 =>
      simp only [if_pos]
      rw [(keyAndValue_iff _ (_, _)).2 ⟨_, rfl, h1, h2⟩]
      rfl
    | expression h1 h2 =>
      simp only [if_pos]
      rw [if_neg (by decide), (keyAndValue_iff _ (_, _)).2 ⟨_, rfl, h1, h2⟩]
      rfl

theorem conditionalData_iff (d : Doc) (c : Legacy.ConditionalData) :
    conditionalData d = some c ↔ ∃ m, d = .obj m ∧ IsConditional m c := by
  unfold conditionalData
  rw [record_iff]
  constructor
  · rintro ⟨m, rfl, h⟩
    refine ⟨m, rfl, ?_⟩
    split at h
    · rename_i p l h1 h2
      cases h
      exact ⟨(defaulted_texts ..).1 h1, (defaulted_objects dataItem IsItem dataItem_iff ..).1 h2⟩
    · cases h
  · rintro ⟨m, rfl, h⟩
    refine ⟨m, rfl, ?_⟩
    rw [(defaulted_texts ..).2 h.predicates, (defaulted_objects dataItem IsItem dataItem_iff ..).2 h.data]

theorem legacy_iff (d : Doc) (a : Legacy.LegacyAction) : legacy d = some a ↔ ∃ m, d = .obj m ∧ IsLegacy m a := by
  unfold legacy
  rw [record_iff]
  constructor
  · rintro ⟨m, rfl, h⟩
    refine ⟨m, rfl, ?_⟩
    split at h
    · rename_i sv sc p cd src h1 h2 h3 h4 h5
      cases h
      exact ⟨(required_text ..).1 h1, (required_text ..).1 h2, (defaulted_texts ..).1 h3,
        (defaulted_objects conditionalData IsConditional conditionalData_iff ..).1 h4, src,
        (defaulted_texts ..).1 h5⟩
    · cases h
  · rintro ⟨m, rfl, h⟩
    refine ⟨m, rfl, ?_⟩
    obtain ⟨src, hsrc⟩ := h.sources
    rw [(required_text ..).2 h.service, (required_text ..).2 h.scope, (defaulted_texts ..).2 h.predicates,
      (defaulted_objects conditionalData IsConditional conditionalData_iff ..).2 h.conditionalData,
      (defaulted_texts ..).2 hsrc]

theorem action_iff (d : Doc) (a : DocAction) : action d = some a ↔ ∃ m, d = .obj m ∧ IsAction m a := by
  unfold action
  constructor
  · intro h
    split at h
    · rename_i t ht
      cases h
      obtain ⟨m, rfl, hm⟩ := (typed_iff ..).1 ht
      exact ⟨m, rfl, .typed hm⟩
    · rename_i hn
      cases hl : legacy d with
      | none => rw [hl] at h; cases h
      | some l =>
        rw [hl] at h
        cases h
        obtain ⟨m, rfl, hm⟩ := (legacy_iff ..).1 hl
        refine ⟨m, rfl, .legacy ?_ hm⟩
        intro t ht
        rw [(typed_iff ..).2 ⟨m, rfl, ht⟩] at hn
        cases hn
  · rintro ⟨m, rfl, h⟩
    cases h with
    | typed h => rw [(typed_iff ..).2 ⟨m, rfl, h⟩]
    | legacy hn h =>
      cases ht : typed (.obj m) with
      | none =>
        simp only
        rw [(legacy_iff ..).2 ⟨m, rfl, h⟩]
        rfl
      | some t =>
        obtain ⟨m', hm', h'⟩ := (typed_iff ..).1 ht
        cases hm'
        exact absurd h' (hn t)

/-! ## The whole document -/

theorem conditions_iff (d : Doc) (c : List Text × List Text) :
    conditions d = some c ↔ ∃ m, d = .obj m ∧ Gives m "hostnames" (.arr (c.1.map .str)) ∧
      GivesTexts m "predicates" c.2 := by
  unfold conditions
  rw [record_iff]
  constructor
  · rintro ⟨m, rfl, h⟩
    refine ⟨m, rfl, ?_⟩
    split at h
    · rename_i hs ps h1 h2
      cases h
      obtain ⟨d, hd, h1⟩ := (required_iff ..).1 h1
      rw [(texts_iff ..).1 h1] at hd
      exact ⟨hd, (defaulted_texts ..).1 h2⟩
    · cases h
  · rintro ⟨m, rfl, h1, h2⟩
    refine ⟨m, rfl, ?_⟩
    rw [(required_iff ..).2 ⟨_, h1, (texts_iff ..).2 rfl⟩, (defaulted_texts ..).2 h2]

theorem actionSet_iff (d : Doc) (s : DocSet) : actionSet d = some s ↔ ∃ m, d = .obj m ∧ IsSet m s := by
  unfold actionSet
  rw [record_iff]
  constructor
  · rintro ⟨m, rfl, h⟩
    refine ⟨m, rfl, ?_⟩
    split at h
    · rename_i n hs ps as h1 h2 h3
      cases h
      obtain ⟨d, hd, h2⟩ := (required_iff ..).1 h2
      obtain ⟨r, rfl, hc⟩ := (conditions_iff ..).1 h2
      obtain ⟨d', hd', h3⟩ := (required_iff ..).1 h3
      obtain ⟨l, rfl, ho⟩ := (list_iff action IsAction action_iff ..).1 h3
      exact ⟨(required_text ..).1 h1, ⟨r, hd, hc⟩, l, hd', ho⟩
    · cases h
  · rintro ⟨m, rfl, h⟩
    refine ⟨m, rfl, ?_⟩
    obtain ⟨r, hr, hc⟩ := h.conditions
    obtain ⟨l, hl, ha⟩ := h.actions
    rw [(required_text ..).2 h.name,
      (required_iff ..).2 ⟨_, hr, (conditions_iff _ (s.hostnames, s.predicates)).2 ⟨r, rfl, hc⟩⟩,
      (required_iff ..).2 ⟨_, hl, (list_iff action IsAction action_iff ..).2 ⟨l, rfl, ha⟩⟩]

theorem tracing_iff (d : Doc) (t : Text) : tracing d = some t ↔ ∃ m, d = .obj m ∧ GivesText m "service" t := by
  unfold tracing
  rw [record_iff]
  simp only [required_text]

/-! ### Tables -/

theorem eachEntry_snoc {α : Type} (read : Doc → Option α) (m : List (Text × Doc)) (e : Text × Doc)
    (l : List (Text × α)) :
    eachEntry read (m ++ [e]) = some l ↔
      ∃ l' a, l = l' ++ [(e.1, a)] ∧ eachEntry read m = some l' ∧ read e.2 = some a := by
  induction m generalizing l with
  | nil =>
    rw [List.nil_append]
    constructor
    · intro h
      rw [eachEntry] at h
      split at h
      · rename_i a l' ha hl
        cases hl
        cases h
        exact ⟨[], a, rfl, rfl, ha⟩
      · cases h
    · rintro ⟨l', a, rfl, h, ha⟩
      cases h
      rw [eachEntry, ha]
      rfl
  | cons x m ih =>
    rw [List.cons_append, eachEntry, eachEntry]
    constructor
    · intro h
      split at h
      · rename_i b l' hb hl
        obtain ⟨l'', a, rfl, hl'', ha⟩ := (ih _).1 hl
        cases h
        refine ⟨(x.1, b) :: l'', a, rfl, ?_, ha⟩
        rw [hb, hl'']
      · cases h
    · rintro ⟨l', a, rfl, h, ha⟩
      split at h
      · rename_i b l'' hb hl
        cases h
        rw [hb, (ih _).2 ⟨l'', a, rfl, hl, ha⟩]
        rfl
      · cases h

theorem eachEntry_all {α : Type} (read : Doc → Option α) (m : List (Text × Doc))
    (h : ∀ e ∈ m, ∃ a, read e.2 = some a) : ∃ l, eachEntry read m = some l := by
  induction m with
  | nil => exact ⟨[], rfl⟩
  | cons e m ih =>
    obtain ⟨a, ha⟩ := h e (List.mem_cons_self ..)
    obtain ⟨l, hl⟩ := ih fun e he => h e (List.mem_cons_of_mem _ he)
    refine ⟨(e.1, a) :: l, ?_⟩
    rw [eachEntry, ha, hl]

theorem table_sound {α : Type} (read : Doc → Option α) (m : List (Text × Doc)) (l : List (Text × α))
    (h : eachEntry read m = some l) :
    IsTable (fun d a => read d = some a) m (l.foldl (fun acc e => mapInsert acc e.1 e.2) []) := by
  induction m using snoc_ind generalizing l with
  | nil =>
    cases h
    refine ⟨fun e he => (nomatch he), List.nodup_nil, ?_⟩
    intro k a
    constructor
    · intro h
      cases h
    · rintro ⟨d, ⟨pre, post, hm, _⟩, _⟩
      cases pre <;> cases hm
  | snoc m e ih =>
    obtain ⟨l', b, rfl, hl, hb⟩ := (eachEntry_snoc ..).1 h
    have t := ih l' hl
    rw [List.foldl_append]
    generalize hf : l'.foldl (fun acc e => mapInsert acc e.1 e.2) [] = f at t
    show IsTable _ _ ((e.1, b) :: f.filter (fun x => x.1 ≠ e.1))
    refine ⟨?_, ?_, ?_⟩
    · intro x hx
      rcases List.mem_append.1 hx with hx | hx
      · exact t.all x hx
      · rw [List.mem_singleton.1 hx]
        exact ⟨b, hb⟩
    · rw [List.map_cons]
      refine List.nodup_cons.2 ⟨?_, ?_⟩
      · intro hm
        obtain ⟨x, hx, he⟩ := List.mem_map.1 hm
        have := (List.mem_filter.1 hx).2
        simp [he] at this
      · exact List.Nodup.sublist ((List.filter_sublist).map _) t.unique
    · intro k a
      constructor
      · intro hm
        rcases List.mem_cons.1 hm with hm | hm
        · cases hm
          exact ⟨e.2, ⟨m, [], rfl, fun x hx => (nomatch hx)⟩, hb⟩
        · obtain ⟨hm, hne⟩ := List.mem_filter.1 hm
          have hne : k ≠ e.1 := by simpa using hne
          obtain ⟨d, ⟨pre, post, rfl, hlast⟩, hd⟩ := (t.entries k a).1 hm
          refine ⟨d, ⟨pre, post ++ [e], by simp, ?_⟩, hd⟩
          intro x hx
          rcases List.mem_append.1 hx with hx | hx
          · exact hlast x hx
          · rw [List.mem_singleton.1 hx]
            exact fun h => hne h.symm
      · rintro ⟨d, ⟨pre, post, hm, hlast⟩, hd⟩
        rcases List.eq_nil_or_concat post with rfl | ⟨post, x, rfl⟩
        · have := List.append_inj' hm rfl
          have he := (List.cons.inj this.2).1
          subst he
          rw [hd] at hb
          cases hb
          exact List.mem_cons_self ..
        · rw [List.concat_eq_append, ← List.cons_append, ← List.append_assoc] at hm
          have := List.append_inj' hm rfl
          have he := (List.cons.inj this.2).1
          subst he
          have hne : e.1 ≠ k := hlast e (by simp)
          refine List.mem_cons_of_mem _ (List.mem_filter.2 ⟨?_, by simpa using fun h => hne h.symm⟩)
          refine (t.entries k a).2 ⟨d, ⟨pre, post, this.1, ?_⟩, hd⟩
          intro x hx
          exact hlast x (by simp [hx])

theorem nodup_keys {α : Type} {l : List (Text × α)} (h : (l.map Prod.fst).Nodup) : l.Nodup := by
  induction l with
  | nil => exact List.nodup_nil
  | cons e l ih =>
    rw [List.map_cons] at h
    obtain ⟨h1, h2⟩ := List.nodup_cons.1 h
    exact List.nodup_cons.2 ⟨fun hm => h1 (List.mem_map_of_mem hm), ih h2⟩

theorem perm_of_mem {α : Type} {l l' : List α} (h : l.Nodup) (h' : l'.Nodup) (hm : ∀ a, a ∈ l ↔ a ∈ l') :
    l.Perm l' := by
  classical
  induction l generalizing l' with
  | nil =>
    cases l' with
    | nil => exact .nil
    | cons x l' => exact (nomatch (hm x).2 (List.mem_cons_self ..))
  | cons a l ih =>
    obtain ⟨ha, hl⟩ := List.nodup_cons.1 h
    obtain ⟨pre, post, rfl⟩ := List.append_of_mem ((hm a).1 (List.mem_cons_self ..))
    refine (List.Perm.cons a (ih (l' := pre ++ post) hl ?_ ?_)).trans List.perm_middle.symm
    · exact (List.nodup_cons.1 ((List.perm_middle).nodup_iff.1 h')).2
    · intro x
      have hn := (List.nodup_cons.1 ((List.perm_middle).nodup_iff.1 h')).1
      constructor
      · intro hx
        have hne : x ≠ a := fun e => ha (e ▸ hx)
        have := (hm x).1 (List.mem_cons_of_mem _ hx)
        simp only [List.mem_append, List.mem_cons] at this ⊢
        rcases this with h | h | h
        · exact .inl h
        · exact absurd h hne
        · exact .inr h
      · intro hx
        have hne : x ≠ a := fun e => hn (e ▸ hx)
        have := (hm x).2 (by
          simp only [List.mem_append, List.mem_cons] at hx ⊢
          rcases hx with h | h
          · exact .inl h
          · exact .inr (.inr h))
        rcases List.mem_cons.1 this with h | h
        · exact absurd h hne
        · exact h

theorem table_unique {α : Type} {Is : Doc → α → Prop} {m : List (Text × Doc)} {l l' : List (Text × α)}
    (h : IsTable Is m l) (h' : IsTable Is m l') : l.Perm l' :=
  perm_of_mem (nodup_keys h.unique) (nodup_keys h'.unique) fun e =>
    (h.entries e.1 e.2).trans (h'.entries e.1 e.2).symm

theorem isTable_congr {α : Type} {Is Is' : Doc → α → Prop} (hi : ∀ d a, Is d a ↔ Is' d a)
    {m : List (Text × Doc)} {l : List (Text × α)} (h : IsTable Is m l) : IsTable Is' m l where
  all := fun e he => (h.all e he).elim fun a ha => ⟨a, (hi _ _).1 ha⟩
  unique := h.unique
  entries := fun k a => (h.entries k a).trans
    ⟨fun ⟨d, hd, ha⟩ => ⟨d, hd, (hi _ _).1 ha⟩, fun ⟨d, hd, ha⟩ => ⟨d, hd, (hi _ _).2 ha⟩⟩

theorem table_iff {α : Type} (read : Doc → Option α) (Is : Doc → α → Prop)
    (hi : ∀ d a, read d = some a ↔ Is d a) (d : Doc) :
    (∀ l, table read d = some l → ∃ m, d = .obj m ∧ IsTable Is m l) ∧
    ∀ m l, d = .obj m → IsTable Is m l → ∃ l', table read d = some l' ∧ l'.Perm l := by
  constructor
  · intro l h
    cases d with
    | obj m =>
      refine ⟨m, rfl, ?_⟩
      unfold table at h
      cases he : eachEntry read m with
      | none => simp only [he] at h; cases h
      | some l0 =>
        simp only [he] at h
        cases h
        exact isTable_congr hi (table_sound read m l0 he)
    | _ => cases h
  · rintro m l rfl h
    obtain ⟨l0, h0⟩ := eachEntry_all read m fun e he => (h.all e he).elim fun a ha => ⟨a, (hi _ _).2 ha⟩
    refine ⟨l0.foldl (fun acc e => mapInsert acc e.1 e.2) [], ?_, ?_⟩
    · unfold table
      simp only [h0]
      rfl
    · exact table_unique (isTable_congr hi (table_sound read m l0 h0)) h

theorem observability_iff (d : Doc) (o : Option Text × Option Text × Option Text) :
    observability d = some o ↔ ∃ m, d = .obj m ∧ ∀ c : Document,
      c.httpHeaderIdentifier = o.1 → c.defaultLevel = o.2.1 → c.tracing = o.2.2 → IsObservability m c := by
  obtain ⟨header, level, tr⟩ := o
  have ht : ∀ m, Doc.optional m "tracing".toList tracing = some tr ↔ match tr with
      | some service => ∃ t, Gives m "tracing" (.obj t) ∧ GivesText t "service" service
      | none => Lacks m "tracing" ∨ Gives m "tracing" .null := by
    intro m
    rw [optional_iff m "tracing" tracing rfl]
    cases tr with
    | none => exact Iff.rfl
    | some s =>
      constructor
      · rintro ⟨d, hd, h⟩
        obtain ⟨t, rfl, ht⟩ := (tracing_iff ..).1 h
        exact ⟨t, hd, ht⟩
      · rintro ⟨t, hd, h⟩
        exact ⟨_, hd, (tracing_iff ..).2 ⟨t, rfl, h⟩⟩
  unfold observability
  rw [record_iff]
  constructor
  · rintro ⟨m, rfl, h⟩
    refine ⟨m, rfl, ?_⟩
    split at h
    · rename_i hd lv t h1 h2 h3
      cases h
      rintro c rfl rfl hc
      refine ⟨(optional_text ..).1 h1, (optional_text ..).1 h2, ?_⟩
      have := (ht m).1 h3
      rw [hc]
      exact this
    · cases h
  · rintro ⟨m, rfl, h⟩
    refine ⟨m, rfl, ?_⟩
    have hc := h ⟨[], [], [], header, level, tr, []⟩ rfl rfl rfl
    rw [(optional_text ..).2 hc.header, (optional_text ..).2 hc.level, (ht m).2 hc.tracing]

theorem configuration_sound (duration : Text → Option Int) (d : Doc) (c : Document)
    (h : configuration duration d = some c) : ∃ m, d = .obj m ∧ IsConfiguration duration m c := by
  unfold configuration at h
  replace h := (record_iff ..).1 h
  obtain ⟨m, rfl, h⟩ := h
  refine ⟨m, rfl, ?_⟩
  split at h
  · rename_i rd sv sets hd lv tr ds h1 h2 h3 h4 h5
    cases h
    refine ⟨?_, ?_, ?_, ?_, ?_⟩
    · rcases (defaulted_iff ..).1 h1 with ⟨d, hd, h1⟩ | h1
      · obtain ⟨t, rfl, ht⟩ := (table_iff text _ text_iff d).1 _ h1
        exact .inl ⟨t, hd, ht⟩
      · exact .inr h1
    · obtain ⟨d, hd, h2⟩ := (required_iff ..).1 h2
      obtain ⟨t, rfl, ht⟩ := (table_iff (service duration) _ (service_iff duration) d).1 _ h2
      exact ⟨t, hd, ht⟩
    · obtain ⟨d, hd, h3⟩ := (required_iff ..).1 h3
      obtain ⟨l, rfl, ho⟩ := (list_iff actionSet IsSet actionSet_iff ..).1 h3
      exact ⟨l, hd, ho⟩
    · rcases (defaulted_iff ..).1 h4 with ⟨d, hd, h4⟩ | h4
      · obtain ⟨t, rfl, ht⟩ := (observability_iff ..).1 h4
        exact .inl ⟨t, hd, ht _ rfl rfl rfl⟩
      · obtain ⟨hl, he⟩ := h4
        cases he
        exact .inr ⟨hl, rfl, rfl, rfl⟩
    · rcases (defaulted_iff ..).1 h5 with ⟨d, hd, h5⟩ | h5
      · rw [(text_iff ..).1 h5] at hd
        exact .inl hd
      · exact .inr h5
  · cases h

theorem configuration_complete (duration : Text → Option Int) (m : List (Text × Doc)) (c : Document)
    (h : IsConfiguration duration m c) :
    ∃ c', configuration duration (.obj m) = some c' ∧ SameConfiguration c' c := by
  have h1 : ∃ rd, defaulted m "requestData".toList [] (table text) = some rd ∧ rd.Perm c.requestData := by
    rcases h.requestData with ⟨t, hd, ht⟩ | ⟨hl, he⟩
    · obtain ⟨l, hl, hp⟩ := (table_iff text _ text_iff (.obj t)).2 t _ rfl ht
      exact ⟨l, (defaulted_iff ..).2 (.inl ⟨_, hd, hl⟩), hp⟩
    · exact ⟨[], (defaulted_iff ..).2 (.inr ⟨hl, rfl⟩), by rw [he]⟩
  have h2 : ∃ sv, required m "services".toList (table (service duration)) = some sv ∧ sv.Perm c.services := by
    obtain ⟨t, hd, ht⟩ := h.services
    obtain ⟨l, hl, hp⟩ := (table_iff (service duration) _ (service_iff duration) (.obj t)).2 t _ rfl ht
    exact ⟨l, (required_iff ..).2 ⟨_, hd, hl⟩, hp⟩
  have h3 : required m "actionSets".toList (list actionSet) = some c.actionSets := by
    obtain ⟨l, hl, ho⟩ := h.actionSets
    exact (required_iff ..).2 ⟨_, hl, (list_iff actionSet IsSet actionSet_iff ..).2 ⟨l, rfl, ho⟩⟩
  have h4 : defaulted m "observability".toList (none, none, none) observability =
      some (c.httpHeaderIdentifier, c.defaultLevel, c.tracing) := by
    rcases h.observability with ⟨t, hd, ho⟩ | ⟨hl, e1, e2, e3⟩
    · refine (defaulted_iff ..).2 (.inl ⟨_, hd, (observability_iff ..).2 ⟨t, rfl, ?_⟩⟩)
      intro c' e1 e2 e3
      exact ⟨by rw [e1]; exact ho.header, by rw [e2]; exact ho.level, by rw [e3]; exact ho.tracing⟩
    · rw [e1, e2, e3]
      exact (defaulted_iff ..).2 (.inr ⟨hl, rfl⟩)
  have h5 : defaulted m "descriptorService".toList "kuadrant-operator-grpc".toList text = some c.descriptorService := by
    refine (defaulted_iff ..).2 ?_
    rcases h.descriptorService with hd | hl
    · exact .inl ⟨_, hd, rfl⟩
    · exact .inr hl
  obtain ⟨rd, h1, p1⟩ := h1
  obtain ⟨sv, h2, p2⟩ := h2
  refine ⟨{ c with requestData := rd, services := sv }, ?_, p1, p2, rfl⟩
  unfold configuration record
  simp only [h1, h2, h3, h4, h5]

/-! ## The order of entries -/

theorem entry?_swap (pre : List (Text × Doc)) (a b : Text × Doc) (post : List (Text × Doc)) (hne : a.1 ≠ b.1)
    (key : Text) : entry? (pre ++ a :: b :: post) key = entry? (pre ++ b :: a :: post) key := by
  unfold entry?
  have : (pre ++ a :: b :: post).filter (fun e => decide (e.1 = key)) =
      (pre ++ b :: a :: post).filter (fun e => decide (e.1 = key)) := by
    rw [List.filter_append, List.filter_append]
    congr 1
    by_cases ha : a.1 = key
    · have hb : b.1 ≠ key := fun h => hne (ha.trans h.symm)
      simp [List.filter_cons, ha, hb]
    · simp [List.filter_cons, ha]
  rw [this]

theorem entry?_entry (pre : List (Text × Doc)) (k : Text) (post : List (Text × Doc)) (d d' : Doc) (key : Text) :
    entry? (pre ++ (k, d) :: post) key = entry? (pre ++ (k, d') :: post) key ∨
      entry? (pre ++ (k, d) :: post) key = some (some d) ∧ entry? (pre ++ (k, d') :: post) key = some (some d') := by
  unfold entry?
  rw [List.filter_append, List.filter_append, List.filter_cons, List.filter_cons]
  by_cases hk : k = key
  · simp only [hk, decide_true, if_true]
    generalize pre.filter (fun e => decide (e.1 = key)) = p
    generalize post.filter (fun e => decide (e.1 = key)) = q
    match p, q with
    | [], [] => exact .inr ⟨rfl, rfl⟩
    | [], _ :: _ => exact .inl rfl
    | [_], _ => exact .inl rfl
    | _ :: _ :: _, _ => exact .inl rfl
  · simp only [hk, decide_false]
    exact .inl rfl

/-- What holds of two entry lists one step of reordering apart. -/
inductive Near (R : Doc → Doc → Prop) : List (Text × Doc) → List (Text × Doc) → Prop
  | swap (pre a b post) : a.1 ≠ b.1 → Near R (pre ++ a :: b :: post) (pre ++ b :: a :: post)
  | entry (pre k post) {d d'} : R d d' → Near R (pre ++ (k, d) :: post) (pre ++ (k, d') :: post)

section
variable {α : Type} {R : Doc → Doc → Prop} {m m' : List (Text × Doc)}

theorem entry?_near (h : Near R m m') (key : Text) :
    entry? m key = entry? m' key ∨ ∃ d d', R d d' ∧ entry? m key = some (some d) ∧ entry? m' key = some (some d') := by
  cases h with
  | swap pre a b post hne => exact .inl (entry?_swap pre a b post hne key)
  | entry pre k post hd =>
    rcases entry?_entry pre k post _ _ key with h | ⟨h, h'⟩
    · exact .inl h
    · exact .inr ⟨_, _, hd, h, h'⟩

theorem required_near (h : Near R m m') (key : Text) (read : Doc → Option α)
    (hr : ∀ d d', R d d' → read d = read d') : required m key read = required m' key read := by
  unfold required
  rcases entry?_near h key with h | ⟨d, d', hd, h, h'⟩
  · rw [h]
  · rw [h, h']
    exact hr d d' hd

theorem defaulted_near (h : Near R m m') (key : Text) (fallback : α) (read : Doc → Option α)
    (hr : ∀ d d', R d d' → read d = read d') : defaulted m key fallback read = defaulted m' key fallback read := by
  unfold defaulted
  rcases entry?_near h key with h | ⟨d, d', hd, h, h'⟩
  · rw [h]
  · rw [h, h']
    exact hr d d' hd

theorem optional_near (h : Near R m m') (key : Text) (read : Doc → Option α)
    (hr : ∀ d d', R d d' → read d = read d') (hn : ∀ d d', R d d' → (d = .null ↔ d' = .null)) :
    Doc.optional m key read = Doc.optional m' key read := by
  unfold Doc.optional
  rcases entry?_near h key with h | ⟨d, d', hd, h, h'⟩
  · rw [h]
  · rw [h, h']
    have h1 := hr d d' hd
    have h2 := hn d d' hd
    cases d <;> cases d' <;> simp_all

end

theorem reordered_null {d d' : Doc} (h : Reordered d d') : d = .null ↔ d' = .null := by
  induction h with
  | refl => exact Iff.rfl
  | swap => constructor <;> intro h <;> cases h
  | entry => constructor <;> intro h <;> cases h
  | element => constructor <;> intro h <;> cases h
  | trans _ _ ih ih' => exact ih.trans ih'

/-- A reading that does not depend on the order of entries. -/
def Orderless {α : Type} (read : Doc → α) : Prop := ∀ d d', Reordered d d' → read d = read d'

theorem orderless_scalar {α : Type} (read : Doc → Option α) (ho : ∀ m, read (.obj m) = none)
    (ha : ∀ l, read (.arr l) = none) : Orderless read := by
  intro d d' h
  induction h with
  | refl => rfl
  | swap => rw [ho, ho]
  | entry => rw [ho, ho]
  | element => rw [ha, ha]
  | trans _ _ ih ih' => exact ih.trans ih'

theorem orderless_text : Orderless text := orderless_scalar _ (fun _ => rfl) (fun _ => rfl)
theorem orderless_flag : Orderless flag := orderless_scalar _ (fun _ => rfl) (fun _ => rfl)
theorem orderless_word {α : Type} (ws : List (String × α)) : Orderless (word ws) :=
  orderless_scalar _ (fun _ => rfl) (fun _ => rfl)
theorem orderless_timeout (duration : Text → Option Int) : Orderless (timeout duration) :=
  orderless_scalar _ (fun _ => rfl) (fun _ => rfl)

theorem orderless_record {α : Type} (read : List (Text × Doc) → Option α)
    (hr : ∀ m m', Near Reordered m m' → read m = read m') : Orderless (record read) := by
  intro d d' h
  induction h with
  | refl => rfl
  | swap pre a b post hne => exact hr _ _ (.swap pre a b post hne)
  | entry pre k post hd => exact hr _ _ (.entry pre k post hd)
  | element => rfl
  | trans _ _ ih ih' => exact ih.trans ih'

theorem each_congr {α : Type} (read : Doc → Option α) (pre post : List Doc) (d d' : Doc) (h : read d = read d') :
    each read (pre ++ d :: post) = each read (pre ++ d' :: post) := by
  induction pre with
  | nil => rw [List.nil_append, List.nil_append, each, each, h]
  | cons x pre ih => rw [List.cons_append, List.cons_append, each, each, ih]

theorem orderless_list {α : Type} (read : Doc → Option α) (hr : Orderless read) : Orderless (list read) := by
  intro d d' h
  induction h with
  | refl => rfl
  | swap => rfl
  | entry => rfl
  | element pre post hd => exact each_congr read pre post _ _ (hr _ _ hd)
  | trans _ _ ih ih' => exact ih.trans ih'

theorem orderless_texts : Orderless texts := orderless_list _ orderless_text

theorem orderless_service (duration : Text → Option Int) : Orderless (service duration) := by
  refine orderless_record _ fun m m' h => ?_
  rw [required_near h "type".toList serviceType (orderless_word _), required_near h "endpoint".toList text orderless_text,
    required_near h "failureMode".toList failureMode (orderless_word _),
    defaulted_near h "timeout".toList _ _ (orderless_timeout duration),
    optional_near h "grpcService".toList text orderless_text (fun _ _ => reordered_null),
    optional_near h "grpcMethod".toList text orderless_text (fun _ _ => reordered_null)]

theorem typedHead_near {R : Doc → Doc → Prop} {m m' : List (Text × Doc)} (h : Near R m m')
    (hR : ∀ d d', R d d' → Reordered d d') : typedHead m = typedHead m' := by
  unfold typedHead
  rw [required_near h "predicate".toList text (fun _ _ hd => orderless_text _ _ (hR _ _ hd)),
    required_near h "terminal".toList flag (fun _ _ hd => orderless_flag _ _ (hR _ _ hd)),
    defaulted_near h "isGuard".toList _ flag (fun _ _ hd => orderless_flag _ _ (hR _ _ hd)),
    defaulted_near h "execution".toList _ execution (fun _ _ hd => orderless_word _ _ _ (hR _ _ hd)),
    defaulted_near h "sources".toList _ texts (fun _ _ hd => orderless_texts _ _ (hR _ _ hd))]

theorem typed_near {R : Doc → Doc → Prop} {m m' : List (Text × Doc)} (h : Near R m m')
    (hR : ∀ d d', R d d' → Reordered d d' ∧ typedList d = typedList d') : typed (.obj m) = typed (.obj m') := by
  have ho : ∀ d d', R d d' → Reordered d d' := fun d d' hd => (hR d d' hd).1
  have ht : ∀ key, required m key text = required m' key text := fun key =>
    required_near h key text fun _ _ hd => orderless_text _ _ (ho _ _ hd)
  have hf : ∀ key, defaulted m key false flag = defaulted m' key false flag := fun key =>
    defaulted_near h key _ flag fun _ _ hd => orderless_flag _ _ (ho _ _ hd)
  have hl : defaulted m "label".toList [] text = defaulted m' "label".toList [] text :=
    defaulted_near h _ _ text fun _ _ hd => orderless_text _ _ (ho _ _ hd)
  have hg : required m "target".toList target = required m' "target".toList target :=
    required_near h _ _ fun _ _ hd => orderless_word _ _ _ (ho _ _ hd)
  have hk : required m "type".toList kind = required m' "type".toList kind :=
    required_near h _ _ fun _ _ hd => orderless_word _ _ _ (ho _ _ hd)
  have hr : defaulted m "onReply".toList [] typedList = defaulted m' "onReply".toList [] typedList :=
    defaulted_near h _ _ typedList fun _ _ hd => (hR _ _ hd).2
  rw [typed_obj, typed_obj]
  unfold typedOf
  rw [replies_eq, replies_eq, typedHead_near h ho, hk, ht, ht, ht, ht, ht, ht, ht, ht, hf, hl, hg, hr]

theorem orderless_typed : Orderless fun d => (typed d, typedList d) := by
  intro d d' h
  induction h with
  | refl => rfl
  | swap pre a b post hne =>
    show (typed _, none) = (typed _, none)
    rw [typed_near (R := fun _ _ => False) (.swap pre a b post hne) (fun _ _ h => h.elim)]
  | entry pre k post hd ih =>
    have := typed_near (R := fun d d' => Reordered d d' ∧ typedList d = typedList d')
      (.entry pre k post ⟨hd, (Prod.mk.inj ih).2⟩) (fun _ _ h => h)
    show (typed _, none) = (typed _, none)
    rw [this]
  | element pre post hd ih =>
    rename_i x x'
    have : typedEach (pre ++ x :: post) = typedEach (pre ++ x' :: post) := by
      rw [typedEach_eq, typedEach_eq]
      exact each_congr typed pre post _ _ (Prod.mk.inj ih).1
    show (none, typedEach _) = (none, typedEach _)
    rw [this]
  | trans _ _ ih ih' => exact ih.trans ih'

theorem orderless_keyAndValue : Orderless keyAndValue := by
  refine orderless_record _ fun m m' h => ?_
  rw [required_near h "key".toList text orderless_text, required_near h "value".toList text orderless_text]

theorem orderless_dataItem : Orderless dataItem := by
  refine orderless_record _ fun m m' h => ?_
  cases h with
  | swap pre a b post hne =>
    match pre with
    | [] => rfl
    | [_] => rfl
    | _ :: _ :: _ => rfl
  | entry pre k post hd =>
    match pre, post with
    | [], [] =>
      simp only [List.nil_append]
      rw [orderless_keyAndValue _ _ hd]
    | [], _ :: _ => rfl
    | [_], _ => rfl
    | _ :: _ :: _, _ => rfl

theorem orderless_conditionalData : Orderless conditionalData := by
  refine orderless_record _ fun m m' h => ?_
  rw [defaulted_near h "predicates".toList _ texts orderless_texts,
    defaulted_near h "data".toList _ _ (orderless_list _ orderless_dataItem)]

theorem orderless_legacy : Orderless legacy := by
  refine orderless_record _ fun m m' h => ?_
  rw [required_near h "service".toList text orderless_text, required_near h "scope".toList text orderless_text,
    defaulted_near h "predicates".toList _ texts orderless_texts,
    defaulted_near h "conditionalData".toList _ _ (orderless_list _ orderless_conditionalData),
    defaulted_near h "sources".toList _ texts orderless_texts]

theorem orderless_action : Orderless action := by
  intro d d' h
  unfold action
  rw [(Prod.mk.inj (orderless_typed d d' h)).1, orderless_legacy d d' h]

theorem orderless_conditions : Orderless conditions := by
  refine orderless_record _ fun m m' h => ?_
  rw [required_near h "hostnames".toList texts orderless_texts,
    defaulted_near h "predicates".toList _ texts orderless_texts]

theorem orderless_actionSet : Orderless actionSet := by
  refine orderless_record _ fun m m' h => ?_
  rw [required_near h "name".toList text orderless_text,
    required_near h "routeRuleConditions".toList conditions orderless_conditions,
    required_near h "actions".toList _ (orderless_list _ orderless_action)]

theorem orderless_tracing : Orderless tracing :=
  orderless_record _ fun _ _ h => required_near h "service".toList text orderless_text

theorem orderless_observability : Orderless observability := by
  refine orderless_record _ fun m m' h => ?_
  rw [optional_near h "httpHeaderIdentifier".toList text orderless_text (fun _ _ => reordered_null),
    optional_near h "defaultLevel".toList text orderless_text (fun _ _ => reordered_null),
    optional_near h "tracing".toList tracing orderless_tracing (fun _ _ => reordered_null)]

theorem Spec.Reordered.symm {d d' : Doc} (h : Reordered d d') : Reordered d' d := by
  induction h with
  | refl d => exact .refl d
  | swap pre a b post hne => exact .swap pre b a post (Ne.symm hne)
  | entry pre k post _ ih => exact .entry pre k post ih
  | element pre post _ ih => exact .element pre post ih
  | trans _ _ ih ih' => exact ih'.trans ih

theorem lastEntry_cons (x : Text × Doc) (m : List (Text × Doc)) (k : Text) (d : Doc) :
    LastEntry (x :: m) k d ↔ LastEntry m k d ∨ x = (k, d) ∧ ∀ e ∈ m, e.1 ≠ k := by
  constructor
  · rintro ⟨p, q, hm, hq⟩
    cases p with
    | nil =>
      obtain ⟨h1, h2⟩ := List.cons.inj hm
      exact .inr ⟨h1, h2 ▸ hq⟩
    | cons y p => exact .inl ⟨p, q, (List.cons.inj hm).2, hq⟩
  · rintro (⟨p, q, hm, hq⟩ | ⟨h1, h2⟩)
    · exact ⟨x :: p, q, by rw [hm]; rfl, hq⟩
    · exact ⟨[], m, by rw [h1]; rfl, h2⟩

theorem lastEntry_swap {pre : List (Text × Doc)} {a b : Text × Doc} {post : List (Text × Doc)} (hne : a.1 ≠ b.1)
    {k : Text} {d : Doc} (h : LastEntry (pre ++ a :: b :: post) k d) : LastEntry (pre ++ b :: a :: post) k d := by
  induction pre with
  | nil =>
    simp only [List.nil_append, lastEntry_cons, List.forall_mem_cons] at h ⊢
    rcases h with (h | ⟨hb, hp⟩) | ⟨ha, _, hp⟩
    · exact .inl (.inl h)
    · exact .inr ⟨hb, fun e => hne (by rw [e, hb]), hp⟩
    · exact .inl (.inr ⟨ha, hp⟩)
  | cons x pre ih =>
    rw [List.cons_append, lastEntry_cons] at h ⊢
    rcases h with h | ⟨hx, hp⟩
    · exact .inl (ih h)
    · refine .inr ⟨hx, fun e he => hp e ?_⟩
      simp only [List.mem_append, List.mem_cons] at he ⊢
      rcases he with h | h | h | h
      · exact .inl h
      · exact .inr (.inr (.inl h))
      · exact .inr (.inl h)
      · exact .inr (.inr (.inr h))

theorem lastEntry_entry {pre : List (Text × Doc)} {k : Text} {d d' : Doc} {post : List (Text × Doc)}
    {key : Text} {x : Doc} (h : LastEntry (pre ++ (k, d) :: post) key x) :
    LastEntry (pre ++ (k, d') :: post) key x ∨ x = d ∧ LastEntry (pre ++ (k, d') :: post) key d' := by
  induction pre with
  | nil =>
    simp only [List.nil_append, lastEntry_cons] at h ⊢
    rcases h with h | ⟨he, hp⟩
    · exact .inl (.inl h)
    · cases he
      exact .inr ⟨rfl, .inr ⟨rfl, hp⟩⟩
  | cons y pre ih =>
    rw [List.cons_append, lastEntry_cons] at h
    rw [List.cons_append, lastEntry_cons, lastEntry_cons]
    rcases h with h | ⟨hx, hp⟩
    · rcases ih h with h | ⟨h1, h2⟩
      · exact .inl (.inl h)
      · exact .inr ⟨h1, .inl h2⟩
    · refine .inl (.inr ⟨hx, fun e he => ?_⟩)
      simp only [List.mem_append, List.mem_cons] at he
      rcases he with h | rfl | h
      · exact hp e (by simp [h])
      · exact hp (k, d) (by simp)
      · exact hp e (by simp [h])

theorem isTable_near {α : Type} {Is : Doc → α → Prop} {R : Doc → Doc → Prop} {m m' : List (Text × Doc)}
    {l : List (Text × α)} (hn : Near R m m') (hR : ∀ d d', R d d' → ∀ a, Is d a ↔ Is d' a)
    (h : IsTable Is m l) : IsTable Is m' l := by
  cases hn with
  | swap pre a b post hne =>
    refine ⟨fun e he => h.all e ?_, h.unique, fun k v => (h.entries k v).trans ?_⟩
    · simp only [List.mem_append, List.mem_cons] at he ⊢
      rcases he with h | h | h | h
      · exact .inl h
      · exact .inr (.inr (.inl h))
      · exact .inr (.inl h)
      · exact .inr (.inr (.inr h))
    · exact ⟨fun ⟨d, hd, hi⟩ => ⟨d, lastEntry_swap hne hd, hi⟩, fun ⟨d, hd, hi⟩ => ⟨d, lastEntry_swap (Ne.symm hne) hd, hi⟩⟩
  | entry pre k post hd =>
    rename_i x x'
    refine ⟨?_, h.unique, fun key v => (h.entries key v).trans ⟨?_, ?_⟩⟩
    · intro e he
      simp only [List.mem_append, List.mem_cons] at he
      rcases he with he | rfl | he
      · exact h.all e (by simp [he])
      · obtain ⟨a, ha⟩ := h.all (k, x) (by simp)
        exact ⟨a, (hR _ _ hd a).1 ha⟩
      · exact h.all e (by simp [he])
    · rintro ⟨d, hl, hi⟩
      rcases lastEntry_entry (d' := x') hl with hl | ⟨rfl, hl'⟩
      · exact ⟨d, hl, hi⟩
      · exact ⟨x', hl', (hR _ _ hd v).1 hi⟩
    · rintro ⟨d, hl, hi⟩
      rcases lastEntry_entry (d' := x) hl with hl | ⟨rfl, hl'⟩
      · exact ⟨d, hl, hi⟩
      · exact ⟨x, hl', (hR _ _ hd v).2 hi⟩

/-- Two readings of tables are the same up to order. -/
def Alike {α : Type} : Option (List α) → Option (List α) → Prop
  | some l, some l' => l.Perm l'
  | none, none => True
  | _, _ => False

theorem Alike.refl {α : Type} (o : Option (List α)) : Alike o o := by
  cases o with
  | none => trivial
  | some l => exact List.Perm.refl l

theorem Alike.trans {α : Type} {a b c : Option (List α)} (h : Alike a b) (h' : Alike b c) : Alike a c := by
  cases a <;> cases b <;> cases c <;> first | trivial | (cases h; done) | (cases h'; done) | exact List.Perm.trans h h'

theorem table_near {α : Type} (read : Doc → Option α) (hr : Orderless read) {m m' : List (Text × Doc)}
    (hn : Near Reordered m m') (hn' : Near Reordered m' m) : Alike (table read (.obj m)) (table read (.obj m')) := by
  have hR : ∀ d d', Reordered d d' → ∀ a, read d = some a ↔ read d' = some a := fun d d' h a => by rw [hr d d' h]
  have hi := fun d => table_iff read (fun d a => read d = some a) (fun _ _ => Iff.rfl) d
  cases h : table read (.obj m) with
  | some l =>
    obtain ⟨x, hx, ht⟩ := (hi _).1 _ h
    cases hx
    obtain ⟨l', hl', hp⟩ := (hi (.obj m')).2 m' l rfl (isTable_near hn hR ht)
    rw [hl']
    exact hp.symm
  | none =>
    cases h' : table read (.obj m') with
    | none => trivial
    | some l =>
      obtain ⟨x, hx, ht⟩ := (hi _).1 _ h'
      cases hx
      obtain ⟨l', hl', hp⟩ := (hi (.obj m)).2 m l rfl (isTable_near hn' hR ht)
      rw [hl'] at h
      cases h

theorem table_alike {α : Type} (read : Doc → Option α) (hr : Orderless read) {d d' : Doc} (h : Reordered d d') :
    Alike (table read d) (table read d') := by
  induction h with
  | refl => exact Alike.refl _
  | swap pre a b post hne => exact table_near read hr (.swap pre a b post hne) (.swap pre b a post (Ne.symm hne))
  | entry pre k post hd => exact table_near read hr (.entry pre k post hd) (.entry pre k post hd.symm)
  | element => trivial
  | trans _ _ ih ih' => exact ih.trans ih'

theorem required_alike {α : Type} {m m' : List (Text × Doc)} (h : Near Reordered m m') (key : Text)
    (read : Doc → Option (List α)) (hr : ∀ d d', Reordered d d' → Alike (read d) (read d')) :
    Alike (required m key read) (required m' key read) := by
  unfold required
  rcases entry?_near h key with h | ⟨d, d', hd, h, h'⟩
  · rw [h]
    exact Alike.refl _
  · rw [h, h']
    exact hr d d' hd

theorem defaulted_alike {α : Type} {m m' : List (Text × Doc)} (h : Near Reordered m m') (key : Text)
    (fallback : List α) (read : Doc → Option (List α)) (hr : ∀ d d', Reordered d d' → Alike (read d) (read d')) :
    Alike (defaulted m key fallback read) (defaulted m' key fallback read) := by
  unfold defaulted
  rcases entry?_near h key with h | ⟨d, d', hd, h, h'⟩
  · rw [h]
    exact Alike.refl _
  · rw [h, h']
    exact hr d d' hd

theorem Spec.SameConfiguration.trans {a b c : Document} (h : SameConfiguration a b) (h' : SameConfiguration b c) :
    SameConfiguration a c := ⟨h.requestData.trans h'.requestData, h.services.trans h'.services, h.rest.trans h'.rest⟩

theorem configuration_near (duration : Text → Option Int) {m m' : List (Text × Doc)} (h : Near Reordered m m')
    {c : Document} (hc : configuration duration (.obj m) = some c) :
    ∃ c', configuration duration (.obj m') = some c' ∧ SameConfiguration c c' := by
  have a1 := defaulted_alike h "requestData".toList [] (table text) (fun _ _ => table_alike text orderless_text)
  have a2 := required_alike h "services".toList (table (service duration))
    (fun _ _ => table_alike _ (orderless_service duration))
  have a3 := required_near h "actionSets".toList (list actionSet) (orderless_list _ orderless_actionSet)
  have a4 := defaulted_near h "observability".toList (none, none, none) observability orderless_observability
  have a5 := defaulted_near h "descriptorService".toList "kuadrant-operator-grpc".toList text orderless_text
  unfold configuration record at hc ⊢
  simp only at hc ⊢
  rw [← a3, ← a4, ← a5]
  split at hc
  · rename_i rd sv sets hd lv tr ds h1 h2 h3 h4 h5
    cases hc
    rw [h1] at a1
    rw [h2] at a2
    cases e1 : defaulted m' "requestData".toList [] (table text) with
    | none => rw [e1] at a1; exact a1.elim
    | some rd' =>
      cases e2 : required m' "services".toList (table (service duration)) with
      | none => rw [e2] at a2; exact a2.elim
      | some sv' =>
        rw [e1] at a1
        rw [e2] at a2
        rw [h3, h4, h5]
        exact ⟨_, rfl, a1, a2, rfl⟩
  · cases hc

theorem configuration_reordered (duration : Text → Option Int) {d d' : Doc} (h : Reordered d d')
    {c : Document} (hc : configuration duration d = some c) :
    ∃ c', configuration duration d' = some c' ∧ SameConfiguration c c' := by
  induction h generalizing c with
  | refl => exact ⟨c, hc, List.Perm.refl _, List.Perm.refl _, rfl⟩
  | swap pre a b post hne => exact configuration_near duration (.swap pre a b post hne) hc
  | entry pre k post hd => exact configuration_near duration (.entry pre k post hd) hc
  | element => cases hc
  | trans _ _ ih ih' =>
    obtain ⟨c1, h1, s1⟩ := ih hc
    obtain ⟨c2, h2, s2⟩ := ih' h1
    exact ⟨c2, h2, s1.trans s2⟩

end Verif
