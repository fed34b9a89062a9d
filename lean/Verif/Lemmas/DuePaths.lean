import Verif.Lemmas.CelMap
import Verif.Lemmas.CelCongr
import Verif.Lemmas.Does
import Verif.Lemmas.Places
import Verif.Model.World
import Verif.Spec.Due
import Verif.Spec.Cause
import Verif.Props.CelEnv
/-! What an expression that could be evaluated tells about the value store; computing the writers still to come. -/
set_option linter.unusedSimpArgs false
namespace Verif
open Spec

section
variable {store : ValueStore} {get : Path → Ans Val}

theorem map_top {pre : Text} {m : List (Text × AttrTree)} {out : List (Key × Val)}
    (h : mapToValue store get pre m = .available out) {t : Text} {tree : AttrTree} (ht : (t, tree) ∈ m)
    (hg : store.get (entryPath pre t) = none) : store.isPending (entryPath pre t) = false := by
  induction m generalizing out with
  | nil => cases ht
  | cons e rest ih =>
    obtain ⟨k, tr⟩ := e
    rw [mapToValue] at h
    rcases List.mem_cons.1 ht with heq | ht
    · cases heq
      rw [hg] at h
      cases hp : store.isPending (entryPath pre t) with
      | false => rfl
      | true => rw [hp] at h; cases h
    · split at h
      · split at h
        · rename_i m' hm'; exact ih hm' ht
        · cases h
        · cases h
      · split at h
        · cases h
        · split at h
          · exact ih h ht
          · split at h
            · split at h
              · rename_i m' hm'; exact ih hm' ht
              · cases h
              · cases h
            · cases h
            · cases h

/-- Expressions whose data could be read refer to nothing that is still to be written. -/
theorem data_settled {ex : CelExpr} {m : List (Key × Val)} (h : dataMap store get (compileExpr ex) = .available m)
    {p : Path} (hp : p ∈ (compileExpr ex).attributes) {t : Text} {ts : Path} (hq : t :: ts <+: p) (ht : t ≠ [])
    (hfree : ∀ r, r ≠ [] → r <+: t :: ts → store.get (dotted r) = none)
    (hno : ∀ r, Above r (t :: ts) → r ∉ (compileExpr ex).attributes) :
    ∀ n, (dotted (t :: ts), n) ∉ store.reserved := by
  intro n hn
  have hdot : ∀ r, r ≠ [] → r <+: t :: ts → under [] r = dotted r := by
    intro r hr hrq
    refine under_nil ?_
    cases r with
    | nil => exact absurd rfl hr
    | cons a as =>
      obtain ⟨rfl, _⟩ := List.cons_prefix_cons.mp hrq
      exact ⟨a, as, rfl, ht⟩
  have hpend : store.isPending (dotted (t :: ts)) = true := by
    unfold ValueStore.isPending
    rw [ValueStore.any_key_iff, hfree _ (by simp) (List.prefix_refl _)]
    simp only [Option.isSome_none, Bool.not_false, Bool.true_and]
    exact List.any_eq_true.2 ⟨_, hn, by simp⟩
  have htree := compile_tree ex (t :: ts) (by simp)
  have hkind : ∃ k, kindAt (attrTree (compileExpr ex).attributes) (t :: ts) = some k := by
    by_cases hv : IsValue (compileExpr ex).attributes (t :: ts)
    · rw [if_pos hv] at htree
      exact ⟨_, htree⟩
    · rw [if_neg hv, if_pos] at htree
      · exact ⟨_, htree⟩
      · refine ⟨⟨p, hp, hq, fun he => hv ⟨he ▸ hp, hno⟩⟩, fun r hr hrq hrp => ?_⟩
        by_cases he : r = t :: ts
        · exact hv ⟨he ▸ hrp, hno⟩
        · exact hno r ⟨hr, hrq, he⟩ hrp
  obtain ⟨k, hk⟩ := hkind
  by_cases hts : ts = []
  · subst hts
    have hmem : ∃ tree, (t, tree) ∈ attrTree (compileExpr ex).attributes := by
      rw [kindAt] at hk
      cases hg : mapGet (attrTree (compileExpr ex).attributes) t with
      | none => rw [hg] at hk; cases hk
      | some tree =>
        unfold mapGet at hg
        obtain ⟨e, he, rfl⟩ := Option.map_eq_some_iff.1 hg
        have h1 := List.mem_of_find?_eq_some he
        have h2 := List.find?_some he
        simp only [decide_eq_true_eq] at h2
        subst h2
        exact ⟨_, h1⟩
    obtain ⟨tree, hmem⟩ := hmem
    have hd : dotted [t] = entryPath [] t := (hdot [t] (by simp) (List.prefix_refl _)).symm
    have h1 := map_top (store := store) (get := get) h hmem (by rw [← hd]; exact hfree _ (by simp) (List.prefix_refl _))
    rw [← hd, hpend] at h1
    cases h1
  · have hmain := (map_follow (store := store) (get := get) h t ts (.inr ht) hk (fun r hr => by
      rw [hdot r hr.1 hr.2.1]; exact hfree r hr.1 hr.2.1)).2
    rw [hdot _ (by simp) (List.prefix_refl _)] at hmain
    have h1 := (hmain (hfree _ (by simp) (List.prefix_refl _)) ?_).1
    · rw [hpend] at h1; cases h1
    · rintro ⟨_, _, h3⟩
      unfold ValueStore.hasPrefix at h3
      rw [Bool.or_eq_false_iff] at h3
      have := List.any_eq_false.1 h3.2 _ hn
      apply this
      unfold startsWith dotted
      rw [joinWith]
      · simp
      · exact hts

end

section
variable {W : Type} (w : World W)

theorem treeInserts_mem {k : Text} {v : Val} (l acc : List (Text × Val))
    (h : (k, v) ∈ l.foldl (fun m e => ValueStore.treeInsert e.1 e.2 m) acc) : (k, v) ∈ l ∨ (k, v) ∈ acc := by
  induction l generalizing acc with
  | nil => exact .inr h
  | cons e l ih =>
    rcases ih _ h with h | h
    · exact .inl (List.mem_cons_of_mem _ h)
    · rcases ValueStore.mem_treeInsert h with h | h
      · exact .inl (by rw [h]; exact List.mem_cons_self ..)
      · exact .inr h

theorem world_store_mem {c : Ctx (Attrs W)} {k : Text} {v : Val} (h : (w.store c).get k = some v) : (k, v) ∈ c.values := by
  unfold ValueStore.get at h
  obtain ⟨e, he, rfl⟩ := Option.map_eq_some_iff.1 h
  have h1 := List.mem_of_find?_eq_some he
  have h2 := List.find?_some he
  simp only [decide_eq_true_eq] at h2
  subst h2
  rcases treeInserts_mem c.values [] h1 with h | h
  · exact h
  · cases h

theorem storedIn_mem {k : Text} {v : Val} (log : List Effect) (acc : List (Text × Val))
    (h : (k, v) ∈ log.foldl noteStored acc) : Effect.stored k v ∈ log ∨ (k, v) ∈ acc := by
  induction log generalizing acc with
  | nil => exact .inr h
  | cons e log ih =>
    rcases ih _ h with h | h
    · exact .inl (List.mem_cons_of_mem _ h)
    · unfold noteStored at h
      cases e with
      | stored k' v' =>
        rcases mem_of_mapInsert h with h | ⟨rfl, rfl⟩
        · exact .inr h
        · exact .inl (List.mem_cons_self ..)
      | _ => exact .inr h

/-- An expression that had a value refers to nothing that is still to be written. -/
theorem eval_settled {c c' : Ctx (Attrs W)} {x text : Text} {e : Expr} {v : Val}
    (he : w.oracle.parse text = some e) (h : evalExpr w.oracle c x e = (.available v, c'))
    {ex : CelExpr} (hex : w.lib.cel text = some ex) {p q : Path} (hp : p ∈ (compileExpr ex).attributes) (hq : q <+: p)
    {root : Text} (hroot : q.head? = some root) (hne : root ≠ [])
    (hfree : ∀ r v, r ≠ [] → r <+: q → (dotted r, v) ∉ c.values)
    (hno : ∀ r, Above r q → r ∉ (compileExpr ex).attributes) :
    ∀ n, (dotted q, n) ∉ w.reserved (c.withHost (w.oracle.attrs c e).2) := by
  have hlit : e.lit = none ∧ e.src = text := by
    obtain ⟨y, _, rfl⟩ := Option.map_eq_some_iff.1 he
    exact ⟨rfl, rfl⟩
  have hcomp : w.compiled e = some (ex, compileExpr ex) := by
    unfold World.compiled
    rw [hlit.2, hex]
    rfl
  unfold evalExpr at h
  rw [hlit.1] at h
  dsimp only at h
  split at h
  · cases h
  · cases h
  · rename_i host hat
    rw [hat]
    split at h
    · split at h
      · rename_i v' host' hres
        have h1 : (w.oracle.resolve (c.withHost host) (scopeVars (c.withHost host).bindings x) e).1 = some v' := by
          rw [hres]
        unfold World.oracle at h1
        dsimp only at h1
        rw [hcomp] at h1
        dsimp only at h1
        split at h1
        · rename_i vars hv
          obtain ⟨m, _, _, hm, _⟩ := vars_get hv
          cases q with
          | nil => cases hroot
          | cons t ts =>
            cases hroot
            refine data_settled hm hp hq hne ?_ hno
            intro r hr hrq
            cases hg : (w.store (c.withHost host)).get (dotted r) with
            | none => rfl
            | some u => exact absurd (world_store_mem w hg) (hfree r u hr hrq)
        · cases h1
      · cases h
    · cases h

end

end Verif

namespace Verif
open Spec

/-! ### Computing the writers still to come -/

def concludedIn (log : List Effect) (id : Text) : Bool := log.any fun
  | .completed x => x = id
  | .failed x => x = id
  | _ => false

theorem concludedIn_iff {log : List Effect} {id : Text} : concludedIn log id = true ↔ Concluded log id := by
  unfold concludedIn Concluded
  rw [List.any_eq_true]
  constructor
  · rintro ⟨e, he, h⟩
    cases e with
    | completed x => simp only [decide_eq_true_eq] at h; subst h; exact .inl he
    | failed x => simp only [decide_eq_true_eq] at h; subst h; exact .inr he
    | _ => cases h
  · rintro (h | h)
    · exact ⟨_, h, by simp⟩
    · exact ⟨_, h, by simp⟩

def wellAnsweredIn (log : List Effect) (id : Text) : Bool :=
  (log.any fun
    | .dispatch x _ _ _ _ _ => x = id
    | _ => false) &&
  (log.any fun
    | .completed x => x = id
    | _ => false) &&
  !(log.any fun
    | .callFailed x => x = id
    | _ => false)

theorem wellAnsweredIn_iff {log : List Effect} {id : Text} : wellAnsweredIn log id = true ↔ WellAnswered log id := by
  unfold wellAnsweredIn WellAnswered
  rw [Bool.and_eq_true, Bool.and_eq_true, Bool.not_eq_true', List.any_eq_true, List.any_eq_true, List.any_eq_false]
  rw [and_assoc]
  refine and_congr ?_ (and_congr ?_ ?_)
  · constructor
    · rintro ⟨e, he, h⟩
      cases e with
      | dispatch => simp only [decide_eq_true_eq] at h; subst h; exact ⟨_, _, _, _, _, he⟩
      | _ => cases h
    · rintro ⟨_, _, _, _, _, h⟩
      exact ⟨_, h, by simp⟩
  · constructor
    · rintro ⟨e, he, h⟩
      cases e with
      | completed => simp only [decide_eq_true_eq] at h; subst h; exact he
      | _ => cases h
    · intro h
      exact ⟨_, h, by simp⟩
  · constructor
    · intro h he
      exact h _ he (by simp)
    · intro h e he hx
      cases e with
      | callFailed => simp only [decide_eq_true_eq] at hx; subst hx; exact h he
      | _ => cases hx

mutual
/-- The paths of the writers among an action and its reply actions, where `may` tells whether the action can come. -/
def duePaths (log : List Effect) (may : Bool) (id : Text) : TypedAction → List Text
  | .store _ path _ _ => if may && !concludedIn log id then [path] else []
  | .grpc _ _ _ _ replies => duePathsList log ((may && !concludedIn log id) || wellAnsweredIn log id) id 0 replies
  | .deny .. => []
  | .headers .. => []
  | .fail .. => []

def duePathsList (log : List Effect) (may : Bool) (id : Text) (j : Nat) : List TypedAction → List Text
  | [] => []
  | t :: ts => duePaths log may (id ++ '.' :: natText j) t ++ duePathsList log may id (j + 1) ts
end

/-- The paths of the writers of an action set. -/
def dueWriters (services : Text → Option SvcInst) (s : ActionSet) (log : List Effect) : List Text :=
  s.actions.zipIdx.flatMap fun (a, i) => match standsFor services a with
    | some t => duePaths log true (natText i) t
    | none => []

theorem duePathsList_mem {log : List Effect} {may : Bool} {id : Text} {n : Nat} {ts : List TypedAction} {path : Text} :
    path ∈ duePathsList log may id n ts ↔
      ∃ j t, ts[j]? = some t ∧ path ∈ duePaths log may (id ++ '.' :: natText (n + j)) t := by
  induction ts generalizing n with
  | nil => simp [duePathsList]
  | cons t ts ih =>
    rw [duePathsList, List.mem_append, ih]
    constructor
    · rintro (h | ⟨j, t', hj, h⟩)
      · exact ⟨0, t, rfl, h⟩
      · exact ⟨j + 1, t', hj, by rw [show n + (j + 1) = n + 1 + j by omega]; exact h⟩
    · rintro ⟨j, t', hj, h⟩
      cases j with
      | zero => cases hj; exact .inl h
      | succ j => exact .inr ⟨j, t', hj, by rw [show n + 1 + j = n + (j + 1) by omega]; exact h⟩

section
variable {services : Text → Option SvcInst} {s : ActionSet} {log : List Effect}

mutual
theorem duePaths_sound {may : Bool} {id : Text} {path : Text} : (t : TypedAction) → At services s id t →
    (may = true → ¬Concluded log id → Due services s log id t) → path ∈ duePaths log may id t →
    WriterDue services s log path
  | .store head path' source exported, _, hd, h => by
    rw [duePaths] at h
    split at h
    · rename_i hm
      rw [Bool.and_eq_true, Bool.not_eq_true', ← Bool.not_eq_true, concludedIn_iff] at hm
      rw [List.mem_singleton] at h
      subst h
      exact ⟨_, _, _, _, hd hm.1 hm.2⟩
    · cases h
  | .grpc head service var message replies, hat, hd, h => by
    rw [duePaths] at h
    refine duePathsList_sound replies (n := 0) (fun j t hj => ⟨.reply hat (by simpa using hj), fun hm hc => ?_⟩) h
    rw [Nat.zero_add] at hc ⊢
    rw [Bool.or_eq_true, Bool.and_eq_true, Bool.not_eq_true', ← Bool.not_eq_true, concludedIn_iff,
      wellAnsweredIn_iff] at hm
    rcases hm with hm | hm
    · exact .within (hd hm.1 hm.2) hj hc
    · exact .after hat hm hj hc
  | .deny .., _, _, h => by rw [duePaths] at h; cases h
  | .headers .., _, _, h => by rw [duePaths] at h; cases h
  | .fail .., _, _, h => by rw [duePaths] at h; cases h

theorem duePathsList_sound {may : Bool} {id : Text} {path : Text} {n : Nat} : (ts : List TypedAction) →
    (∀ j t, ts[j]? = some t → At services s (id ++ '.' :: natText (n + j)) t ∧
      (may = true → ¬Concluded log (id ++ '.' :: natText (n + j)) → Due services s log (id ++ '.' :: natText (n + j)) t)) →
    path ∈ duePathsList log may id n ts → WriterDue services s log path
  | [], _, h => by rw [duePathsList] at h; cases h
  | t :: ts, hd, h => by
    rw [duePathsList, List.mem_append] at h
    rcases h with h | h
    · exact duePaths_sound t (hd 0 t rfl).1 (hd 0 t rfl).2 h
    · refine duePathsList_sound ts (fun j t' hj => ?_) h
      have := hd (j + 1) t' hj
      rw [show n + (j + 1) = n + 1 + j by omega] at this
      exact this
end

mutual
theorem duePaths_mono {may may' : Bool} (hm : may = true → may' = true) {id path : Text} : (t : TypedAction) →
    path ∈ duePaths log may id t → path ∈ duePaths log may' id t
  | .store head path' source exported, h => by
    rw [duePaths] at h ⊢
    split at h
    · rename_i hc
      rw [Bool.and_eq_true] at hc
      rw [if_pos (by rw [Bool.and_eq_true]; exact ⟨hm hc.1, hc.2⟩)]
      exact h
    · cases h
  | .grpc head service var message replies, h => by
    rw [duePaths] at h ⊢
    refine duePathsList_mono ?_ replies h
    simp only [Bool.or_eq_true, Bool.and_eq_true]
    rintro (h | h)
    · exact .inl ⟨hm h.1, h.2⟩
    · exact .inr h
  | .deny .., h => by rw [duePaths] at h; cases h
  | .headers .., h => by rw [duePaths] at h; cases h
  | .fail .., h => by rw [duePaths] at h; cases h

theorem duePathsList_mono {may may' : Bool} (hm : may = true → may' = true) {id path : Text} {n : Nat} :
    (ts : List TypedAction) → path ∈ duePathsList log may id n ts → path ∈ duePathsList log may' id n ts
  | [], h => h
  | t :: ts, h => by
    rw [duePathsList, List.mem_append] at h ⊢
    exact h.imp (duePaths_mono hm t) (duePathsList_mono hm ts)
end

theorem duePaths_top {i : Nat} {a : ActionConfig} {t : TypedAction} (ha : s.actions[i]? = some a)
    (hst : standsFor services a = some t) {path : Text} (h : path ∈ duePaths log true (natText i) t) :
    path ∈ dueWriters services s log := by
  unfold dueWriters
  refine List.mem_flatMap.2 ⟨(a, i), List.mem_zipIdx_iff_getElem?.2 ha, ?_⟩
  dsimp only
  rw [hst]
  exact h

theorem duePaths_lift {x : Text} {t : TypedAction} (hat : At services s x t) {path : Text}
    (h : path ∈ duePaths log false x t) : path ∈ dueWriters services s log := by
  induction hat with
  | @top i a t ha hst => exact duePaths_top ha hst (duePaths_mono (may := false) (fun h => (nomatch h)) t h)
  | @reply id head service var message replies j t hat hj ih =>
    refine ih ?_
    rw [duePaths, duePathsList_mem]
    refine ⟨j, t, hj, ?_⟩
    rw [Nat.zero_add]
    exact duePaths_mono (may := false) (fun h => (nomatch h)) t h

theorem due_open {x : Text} {t : TypedAction} (h : Due services s log x t) : ¬Concluded log x := by
  cases h <;> assumption

theorem duePaths_complete {x : Text} {t : TypedAction} (hd : Due services s log x t) {path : Text}
    (h : path ∈ duePaths log true x t) : path ∈ dueWriters services s log := by
  induction hd with
  | top ha hst hc => exact duePaths_top ha hst h
  | @within id head service var message replies j t hp hj hc ih =>
    refine ih ?_
    rw [duePaths, duePathsList_mem]
    refine ⟨j, t, hj, ?_⟩
    rw [Nat.zero_add]
    refine duePaths_mono (fun _ => ?_) t h
    rw [Bool.or_eq_true, Bool.and_eq_true, Bool.not_eq_true', ← Bool.not_eq_true, concludedIn_iff]
    exact .inl ⟨rfl, due_open hp⟩
  | @after id head service var message replies j t hat ha hj hc =>
    refine duePaths_lift hat ?_
    rw [duePaths, duePathsList_mem]
    refine ⟨j, t, hj, ?_⟩
    rw [Nat.zero_add]
    refine duePaths_mono (fun _ => ?_) t h
    rw [Bool.or_eq_true, wellAnsweredIn_iff]
    exact .inr ha

/-- The computed paths are those of the writers still to come. -/
theorem dueWriters_iff {path : Text} : path ∈ dueWriters services s log ↔ WriterDue services s log path := by
  constructor
  · intro h
    unfold dueWriters at h
    obtain ⟨⟨a, i⟩, ha, h⟩ := List.mem_flatMap.1 h
    have hi : s.actions[i]? = some a := List.mem_zipIdx_iff_getElem?.1 ha
    dsimp only at h
    cases hst : standsFor services a with
    | none => rw [hst] at h; cases h
    | some t =>
      rw [hst] at h
      exact duePaths_sound t (.top hi hst) (fun _ hc => .top hi hst hc) h
  · rintro ⟨id, head, source, exported, hd⟩
    refine duePaths_complete hd ?_
    have : ¬concludedIn log id = true := fun h => due_open hd (concludedIn_iff.1 h)
    rw [duePaths, if_pos (by simp [this])]
    simp

end

end Verif
