import Verif.Spec.InForce
import Verif.Props.Services
import Verif.Props.Document
import Verif.Props.Observability
/-!
C61: from the document to the configuration in force.
-/
namespace Verif.Props
open Spec Cel

theorem keyParts_iff (alphabetic : Char → Bool) (hdot : alphabetic '.' = false) (key domain field : Text) :
    KeyParts alphabetic key domain field ↔ domainAndField alphabetic key = (domain, field) := by
  constructor
  · rintro (⟨hne, h⟩ | ⟨rfl, rfl, h⟩)
    · exact C20_cut alphabetic key domain field hne h
    · exact C20_whole alphabetic _ hdot h
  · intro h
    by_cases hc : ∃ d f, d ≠ [] ∧ CutAtLastDot alphabetic key d f
    · obtain ⟨d, f, hne, hc⟩ := hc
      rw [C20_cut alphabetic key d f hne hc] at h
      cases h
      exact .inl ⟨hne, hc⟩
    · have hc : ∀ d f, d ≠ [] → ¬CutAtLastDot alphabetic key d f := fun d f hd h => hc ⟨d, f, hd, h⟩
      rw [C20_whole alphabetic key hdot hc] at h
      cases h
      exact .inr ⟨rfl, rfl, hc⟩

theorem mem_insertBy {α : Type} (le : α → α → Bool) (a b : α) (l : List α) :
    b ∈ insertBy le a l ↔ b = a ∨ b ∈ l := by
  induction l with
  | nil => simp [insertBy]
  | cons x l ih =>
    unfold insertBy
    split
    · simp
    · simp only [List.mem_cons, ih]
      constructor
      · rintro (h | h | h) <;> simp [h]
      · rintro (h | h | h) <;> simp [h]

theorem mem_sortBy {α : Type} (le : α → α → Bool) (b : α) (l : List α) : b ∈ sortBy le l ↔ b ∈ l := by
  induction l with
  | nil => rfl
  | cons a l ih => rw [sortBy, mem_insertBy, ih, List.mem_cons]

theorem insertBy_sorted {α : Type} (le : α → α → Bool) (htotal : ∀ a b, le a b = true ∨ le b a = true)
    (htrans : ∀ a b c, le a b = true → le b c = true → le a c = true) (a : α) (l : List α)
    (h : l.Pairwise fun a b => le a b = true) : (insertBy le a l).Pairwise fun a b => le a b = true := by
  induction l with
  | nil => simp [insertBy]
  | cons x l ih =>
    obtain ⟨hx, hl⟩ := List.pairwise_cons.1 h
    unfold insertBy
    split
    · rename_i hax
      refine List.pairwise_cons.2 ⟨fun b hb => ?_, h⟩
      rcases List.mem_cons.1 hb with rfl | hb
      · exact hax
      · exact htrans _ _ _ hax (hx b hb)
    · rename_i hax
      refine List.pairwise_cons.2 ⟨fun b hb => ?_, ih hl⟩
      rcases (mem_insertBy le a b l).1 hb with rfl | hb
      · exact (htotal x b).resolve_right hax
      · exact hx b hb

theorem sortBy_sorted {α : Type} (le : α → α → Bool) (htotal : ∀ a b, le a b = true ∨ le b a = true)
    (htrans : ∀ a b c, le a b = true → le b c = true → le a c = true) (l : List α) :
    (sortBy le l).Pairwise fun a b => le a b = true := by
  induction l with
  | nil => exact .nil
  | cons a l ih => exact insertBy_sorted le htotal htrans a _ ih

theorem insertBy_perm {α : Type} (le : α → α → Bool) (a : α) (l : List α) : (insertBy le a l).Perm (a :: l) := by
  induction l with
  | nil => exact .refl _
  | cons x l ih =>
    unfold insertBy
    split
    · exact .refl _
    · exact (ih.cons x).trans (.swap _ _ _)

theorem sortBy_permutes {α : Type} (le : α → α → Bool) (l : List α) : (sortBy le l).Perm l := by
  induction l with
  | nil => exact .refl _
  | cons a l ih => exact (insertBy_perm le a _).trans (ih.cons a)

theorem pairLe_iff (a b : Text × Text) :
    pairLe a b = true ↔ a.1 = b.1 ∧ textLe a.2 b.2 = true ∨ a.1 ≠ b.1 ∧ textLe a.1 b.1 = true := by
  unfold pairLe
  split <;> simp_all

theorem pairLe_total (a b : Text × Text) : pairLe a b = true ∨ pairLe b a = true := by
  rw [pairLe_iff, pairLe_iff]
  have h1 := textLe_total a.1 b.1
  have h2 := textLe_total a.2 b.2
  rw [Bool.or_eq_true] at h1 h2
  by_cases h : a.1 = b.1
  · rcases h2 with h2 | h2
    · exact .inl (.inl ⟨h, h2⟩)
    · exact .inr (.inl ⟨h.symm, h2⟩)
  · rcases h1 with h1 | h1
    · exact .inl (.inr ⟨h, h1⟩)
    · exact .inr (.inr ⟨fun e => h e.symm, h1⟩)

theorem pairLe_trans (a b c : Text × Text) (h1 : pairLe a b = true) (h2 : pairLe b c = true) : pairLe a c = true := by
  rw [pairLe_iff] at *
  rcases h1 with ⟨e1, h1⟩ | ⟨e1, h1⟩ <;> rcases h2 with ⟨e2, h2⟩ | ⟨e2, h2⟩
  · exact .inl ⟨e1.trans e2, textLe_trans _ _ _ h1 h2⟩
  · exact .inr ⟨by rw [e1]; exact e2, by rw [e1]; exact h2⟩
  · exact .inr ⟨by rw [← e2]; exact e1, by rw [← e2]; exact h1⟩
  · refine .inr ⟨fun e => ?_, textLe_trans _ _ _ h1 h2⟩
    rw [← e] at h2
    exact e1 (textLe_antisymm _ _ h1 h2)

theorem data_of (alphabetic : Char → Bool) (hdot : alphabetic '.' = false) (parse : Text → Option Expr) (c : Document)
    (hn : (c.requestData.map Prod.fst).Nodup) : DataOf alphabetic parse c (c.data alphabetic parse) where
  entries domain field e := by
    unfold Document.data
    rw [mem_sortBy, List.mem_map]
    constructor
    · rintro ⟨⟨key, e'⟩, hm, he⟩
      obtain ⟨h1, h2⟩ := List.mem_filter.1 hm
      obtain ⟨h3, rfl⟩ := Prod.mk.inj he
      exact ⟨key, h1, h2, (keyParts_iff alphabetic hdot key domain field).2 h3⟩
    · rintro ⟨key, h1, h2, h3⟩
      exact ⟨(key, e), List.mem_filter.2 ⟨h1, h2⟩, by
        rw [(keyParts_iff alphabetic hdot key domain field).1 h3]⟩
  order := by
    have hs : (c.data alphabetic parse).Pairwise fun a b => pairLe a.1 b.1 = true :=
      sortBy_sorted _ (fun a b => pairLe_total a.1 b.1) (fun a b c => pairLe_trans a.1 b.1 c.1) _
    have hd : ((c.data alphabetic parse).map Prod.fst).Nodup := by
      unfold Document.data
      rw [((sortBy_permutes _ _).map Prod.fst).nodup_iff, List.map_map]
      have hn' : ((c.requestData.filter fun e => (parse e.2).isSome).map Prod.fst).Nodup :=
        List.Nodup.sublist (List.filter_sublist.map _) hn
      have : ((fun e : Text × Text => (domainAndField alphabetic e.1, e.2)) : Text × Text → (Text × Text) × Text) =
        fun e => (domainAndField alphabetic e.1, e.2) := rfl
      rw [show (Prod.fst ∘ fun e : Text × Text => (domainAndField alphabetic e.1, e.2)) =
        domainAndField alphabetic ∘ Prod.fst from rfl, ← List.map_map]
      exact List.Pairwise.map (R := (· ≠ ·)) _ (fun a b hab e => hab (domainAndField_injective alphabetic a b e)) hn'
    rw [List.Nodup, List.pairwise_map] at hd
    exact hd.imp₂ (fun a b h1 h2 => ⟨h1, (pairLe_iff _ _).1 h2⟩) hs

theorem each_config (data : Legacy.RequestData) (l : List DocAction) :
    Each (ActionFrom data) l (l.map (·.config data)) := by
  induction l with
  | nil => exact .nil
  | cons a l ih =>
    refine .cons ?_ ih
    cases a with
    | typed t => exact .typed t
    | legacy a => exact .legacy a

theorem each_set (data : Legacy.RequestData) (l : List DocSet) :
    Each (SetFrom data) l (l.map (·.config data)) := by
  induction l with
  | nil => exact .nil
  | cons s l ih => exact .cons ⟨rfl, rfl, rfl, each_config data s.actions⟩ ih

/-- C61: an accepted document is in force: requests are served with its action sets, services and settings, and with
its request data as far as they can be compiled. -/
theorem C61_in_force {P : Type} (parse : Text → Option Expr) (alphabetic : Char → Bool) (hdot : alphabetic '.' = false)
    (duration : Text → Option Int) (r r' : Root P) (d : Doc) (dispatch : Text → List DescKey → Option Nat) (tickOk : Bool)
    (h : r.onConfigureDoc parse alphabetic duration (some d) dispatch tickOk = (r', true)) :
    ∃ m c data pc, d = .obj m ∧ IsConfiguration duration m c ∧ DataOf alphabetic parse c data ∧ InForce c data pc ∧
      Factory.tryFrom parse pc = some r'.factory ∧
      r'.traceFilter = traceLevel { tracing := c.tracing, defaultLevel := c.defaultLevel } ∧
      r'.manager.service = some c.descriptorService := by
  unfold Root.onConfigureDoc at h
  cases hc : Doc.configuration duration d with
  | none => rw [Option.bind_some, hc] at h; cases h
  | some c =>
    rw [Option.bind_some, hc, Option.map_some] at h
    obtain ⟨m, hm, hcfg⟩ := C61_means duration d c hc
    have hn : (c.requestData.map Prod.fst).Nodup := by
      rcases hcfg.requestData with ⟨t, _, ht⟩ | ⟨_, h⟩
      · exact ht.unique
      · rw [h]; exact .nil
    cases hf : compiled parse (c.root alphabetic parse) with
    | none =>
      have : (r.onConfigure parse (some (c.root alphabetic parse)) dispatch tickOk).2 = false := by
        simp only [Root.onConfigure, Root.processConfig, tryFrom_eq, hf]
      rw [h] at this
      cases this
    | some f =>
      obtain ⟨h1, h2⟩ := configure_accepted r (c.root alphabetic parse) dispatch tickOk hf
      rw [h] at h1 h2
      obtain ⟨pc, hp, h3, h4, h5, h6, h7, h8⟩ := C70_services parse _ f hf
      refine ⟨m, c, c.data alphabetic parse, pc, hm, hcfg, data_of alphabetic hdot parse c hn,
        ⟨?_, ?_, h5, h6, h7, h8⟩, ?_, ?_, ?_⟩
      · rw [h3]; exact each_set _ _
      · rw [h4]
        show List.map Prod.snd (List.map _ _) = _
        rw [List.map_map]
        rfl
      · rw [hp]; exact congrArg some h2.symm
      · have ht : (r.onConfigure parse (some (c.root alphabetic parse)) dispatch tickOk).1.traceFilter =
            otelFilter (c.root alphabetic parse).tracing.isSome (c.root alphabetic parse).defaultLevel := by
          simp only [Root.onConfigure, Root.processConfig, tryFrom_eq, hf]
          unfold Root.setTickEnabled
          repeat' split
          all_goals rfl
        rw [h] at ht
        rw [show r'.traceFilter = _ from ht, otel_eq]
        rfl
      · have hs : (prepared r (c.root alphabetic parse)).manager.service = some c.descriptorService := by
          show (Manager.setService _ _).service = _
          unfold Manager.setService
          split
          · rename_i h; exact h
          · rfl
        rcases h1 with ⟨h1, -⟩ | ⟨h1, -⟩
        · rw [show r'.manager = _ from h1, fetch_service]; exact hs
        · rw [show r'.manager = _ from h1]; exact hs

namespace Sample

def alphabetic (c : Char) : Bool := decide ('a' ≤ c ∧ c ≤ 'z')

def fresh : Root Unit := { manager := { pools := [], embedded := [] } }

def configured : Root Unit × Bool :=
  fresh.onConfigureDoc (fun t => some { src := t }) alphabetic duration (some (.obj whole)) (fun _ _ => none) true

end Sample

example : Sample.configured = (Sample.configured.1, true) := Prod.ext rfl (by decide +kernel)

/-- The document of the example is in force. -/
example : ∃ c data pc, IsConfiguration Sample.duration Sample.whole c ∧ InForce c data pc ∧
    Factory.tryFrom (fun t => some { src := t }) pc = some Sample.configured.1.factory ∧
    (("metrics.labels".toList, "user".toList), "u".toList) ∈ data := by
  obtain ⟨m, c, data, pc, hm, hc, hd, hf, ht, -⟩ := C61_in_force (fun t => some { src := t }) Sample.alphabetic (by decide)
    Sample.duration Sample.fresh _ (.obj Sample.whole) _ _ (Prod.ext rfl (show Sample.configured.2 = true by decide +kernel))
  cases hm
  refine ⟨c, data, pc, hc, hf, ht, (hd.entries _ _ _).2 ⟨"metrics.labels.user".toList, ?_, rfl, ?_⟩⟩
  · rcases hc.requestData with ⟨t, h, ht⟩ | ⟨h, -⟩
    · refine (ht.entries _ _).2 ⟨.str "u".toList, ?_, rfl⟩
      have := gives_unique h (d' := .obj [("metrics.labels.user".toList, .str "u".toList)])
        ⟨[_, _], [], rfl, by
          intro e he
          simp only [List.append_nil, List.mem_cons, List.not_mem_nil, or_false] at he
          rcases he with rfl | rfl <;> decide⟩
      cases this
      exact ⟨[], [], rfl, by simp⟩
    · exact absurd rfl (h ("requestData".toList, _) (by simp [Sample.whole]; rfl))
  · refine .inl ⟨by decide, ?_, ?_, ?_⟩
    · decide
    · exact ⟨'u', by decide, by decide⟩
    · intro a b h
      have : '.' ∈ "user".toList := by rw [h]; simp
      exact absurd this (by decide)

end Verif.Props
