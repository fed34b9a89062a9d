import Verif.Spec.Decimal
import Verif.Model.Body
/-! Lemmas about reading decimal numbers. -/
namespace Verif
open Spec

theorem digit_iff (c : Char) (d : Nat) :
    Sse.digit? c = some d ↔ ('0' ≤ c ∧ c ≤ '9') ∧ d = c.toNat - '0'.toNat := by
  unfold Sse.digit?
  split
  · rename_i h
    simp only [h, and_self, true_and, Option.some.injEq]
    exact eq_comm
  · rename_i h
    constructor
    · intro h'; exact nomatch h'
    · intro h'; exact absurd h'.1 h

theorem digitsVal_iff (t : Text) (acc n : Nat) :
    Sse.digitsVal acc t = some n ↔ (∀ c ∈ t, '0' ≤ c ∧ c ≤ '9') ∧
      n = t.foldl (fun n c => 10 * n + (c.toNat - '0'.toNat)) acc := by
  induction t generalizing acc with
  | nil => simp [Sse.digitsVal, eq_comm]
  | cons c cs ih =>
    unfold Sse.digitsVal
    cases hd : Sse.digit? c with
    | none =>
      constructor
      · intro h; exact nomatch h
      · rintro ⟨h, -⟩
        have := (digit_iff c _).2 ⟨h c (List.mem_cons_self ..), rfl⟩
        rw [hd] at this; exact nomatch this
    | some d =>
      obtain ⟨hc, rfl⟩ := (digit_iff c d).1 hd
      simp only [ih, List.foldl_cons]
      rw [Nat.mul_comm acc 10]
      constructor
      · rintro ⟨h, hn⟩
        refine ⟨fun x hx => ?_, hn⟩
        rcases List.mem_cons.1 hx with rfl | hx
        · exact hc
        · exact h x hx
      · rintro ⟨h, hn⟩
        exact ⟨fun x hx => h x (List.mem_cons_of_mem _ hx), hn⟩

theorem digits_iff (t : Text) (n : Nat) :
    Digits t n ↔ t ≠ [] ∧ Sse.digitsVal 0 t = some n := by
  unfold Digits digitsValue
  rw [digitsVal_iff]

theorem Spec.Digits.head {t : Text} {n : Nat} (h : Digits t n) : ∃ c r, t = c :: r ∧ '0' ≤ c ∧ c ≤ '9' := by
  cases t with
  | nil => exact absurd rfl h.1
  | cons c r => exact ⟨c, r, rfl, h.2.1 c (List.mem_cons_self ..)⟩

theorem parseU64_iff (t : Text) (n : Nat) : Sse.parseU64 t = some n ↔ Unsigned t n ∧ n < 2 ^ 64 := by
  have key : ∀ ds : Text, (match ds with
      | [] => none
      | _ => match Sse.digitsVal 0 ds with
        | some n => if n < 2 ^ 64 then some n else none
        | none => none) = some n ↔ Digits ds n ∧ n < 2 ^ 64 := by
    intro ds
    rw [digits_iff]
    cases ds with
    | nil => simp
    | cons c r =>
      cases hv : Sse.digitsVal 0 (c :: r) with
      | none => simp
      | some m =>
        by_cases hm : m < 2 ^ 64
        · simp only [hm, if_true, Option.some.injEq, ne_eq, reduceCtorEq, not_false_eq_true, true_and]
          constructor
          · rintro rfl; exact ⟨rfl, hm⟩
          · exact fun h => h.1
        · simp only [hm, if_false, Option.some.injEq, ne_eq, reduceCtorEq, not_false_eq_true, true_and,
            false_iff]
          rintro ⟨rfl, h⟩; exact hm h
  unfold Sse.parseU64
  split
  · rename_i r
    refine Iff.trans (key r) ?_
    constructor
    · rintro ⟨h, hn⟩; exact ⟨.plus h, hn⟩
    · rintro ⟨h, hn⟩
      cases h with
      | plus h => exact ⟨h, hn⟩
      | plain h =>
        obtain ⟨c, r', he, h0, h9⟩ := h.head
        obtain ⟨rfl, -⟩ := List.cons.inj he
        exact absurd h0 (by decide)
  · rename_i hne
    refine Iff.trans (key t) ?_
    constructor
    · rintro ⟨h, hn⟩; exact ⟨.plain h, hn⟩
    · rintro ⟨h, hn⟩
      cases h with
      | plain h => exact ⟨h, hn⟩
      | plus h => exact absurd rfl (hne _)

theorem parseI64_iff (t : Text) (i : Int) :
    parseI64 t = some i ↔ Signed t i ∧ -(2 ^ 63) ≤ i ∧ i < 2 ^ 63 := by
  have hplus : ∀ ds : Text, (match ds with
      | [] => none
      | _ => match Sse.digitsVal 0 ds with
        | some n => if n < 2 ^ 63 then some (n : Int) else none
        | none => none) = some i ↔ ∃ n : Nat, i = n ∧ Digits ds n ∧ n < 2 ^ 63 := by
    intro ds
    simp only [digits_iff]
    cases ds with
    | nil => simp
    | cons c r =>
      cases hv : Sse.digitsVal 0 (c :: r) with
      | none => simp
      | some m =>
        by_cases hm : m < 2 ^ 63
        · simp only [hm, if_true, Option.some.injEq, ne_eq, reduceCtorEq, not_false_eq_true, true_and]
          constructor
          · rintro rfl; exact ⟨m, rfl, rfl, hm⟩
          · rintro ⟨n, rfl, rfl, -⟩; rfl
        · simp only [hm, if_false, Option.some.injEq, ne_eq, reduceCtorEq, not_false_eq_true, true_and,
            false_iff]
          rintro ⟨n, -, rfl, h⟩; exact hm h
  have hminus : ∀ ds : Text, (match ds with
      | [] => none
      | _ => match Sse.digitsVal 0 ds with
        | some n => if n ≤ 2 ^ 63 then some (-(n : Int)) else none
        | none => none) = some i ↔ ∃ n : Nat, i = -n ∧ Digits ds n ∧ n ≤ 2 ^ 63 := by
    intro ds
    simp only [digits_iff]
    cases ds with
    | nil => simp
    | cons c r =>
      cases hv : Sse.digitsVal 0 (c :: r) with
      | none => simp
      | some m =>
        by_cases hm : m ≤ 2 ^ 63
        · simp only [hm, if_true, Option.some.injEq, ne_eq, reduceCtorEq, not_false_eq_true, true_and]
          constructor
          · rintro rfl; exact ⟨m, rfl, rfl, hm⟩
          · rintro ⟨n, rfl, rfl, -⟩; rfl
        · simp only [hm, if_false, Option.some.injEq, ne_eq, reduceCtorEq, not_false_eq_true, true_and,
            false_iff]
          rintro ⟨n, -, rfl, h⟩; exact hm h
  have hhead : ∀ {n : Nat} {c : Char} {r : Text}, Digits (c :: r) n → ¬'0' ≤ c → False := by
    intro n c r h hc
    obtain ⟨c', r', he, h0, -⟩ := h.head
    obtain ⟨rfl, -⟩ := List.cons.inj he
    exact hc h0
  unfold parseI64
  split
  · rename_i ds
    refine Iff.trans (hminus ds) ?_
    constructor
    · rintro ⟨n, rfl, h, hn⟩
      exact ⟨.minus h, by omega, by omega⟩
    · rintro ⟨h, h1, h2⟩
      generalize ht : '-' :: ds = t at h
      cases h with
      | unsigned h =>
        cases h with
        | plain h => subst ht; exact (hhead h (by decide)).elim
        | plus h => exact absurd (List.cons.inj ht).1 (by decide)
      | minus h =>
        obtain ⟨-, rfl⟩ := List.cons.inj ht
        exact ⟨_, rfl, h, by omega⟩
  · rename_i hne
    refine Iff.trans (hplus _) ?_
    split
    · rename_i r
      constructor
      · rintro ⟨n, rfl, h, hn⟩
        exact ⟨.unsigned (.plus h), by omega, by omega⟩
      · rintro ⟨h, h1, h2⟩
        generalize ht : '+' :: r = t at h
        cases h with
        | unsigned h =>
          cases h with
          | plain h => subst ht; exact (hhead h (by decide)).elim
          | plus h =>
            obtain ⟨-, rfl⟩ := List.cons.inj ht
            exact ⟨_, rfl, h, by omega⟩
        | minus h => exact absurd (List.cons.inj ht).1 (by decide)
    · rename_i hnp
      constructor
      · rintro ⟨n, rfl, h, hn⟩
        exact ⟨.unsigned (.plain h), by omega, by omega⟩
      · rintro ⟨h, h1, h2⟩
        cases h with
        | unsigned h =>
          cases h with
          | plain h => exact ⟨_, rfl, h, by omega⟩
          | plus h => exact absurd rfl (hnp _)
        | minus h => exact absurd rfl (hne _)

theorem digits_nat (n : Nat) : Digits (toString n).toList n := by
  have he : (toString n).toList = Nat.toDigits 10 n := by
    show n.repr.toList = _
    exact Nat.toList_repr
  rw [he]
  refine ⟨Nat.toDigits_ne_nil, fun c hc => ?_, ?_⟩
  · have := Nat.isDigit_of_mem_toDigits (by decide) (by decide) hc
    simp only [Char.isDigit, Bool.and_eq_true, decide_eq_true_eq] at this
    exact ⟨this.1, this.2⟩
  · exact (Nat.ofDigitChars_ten_toDigits (n := n)).symm

theorem signed_int (i : Int) : Signed (toString i).toList i := by
  cases i with
  | ofNat n => exact .unsigned (.plain (digits_nat n))
  | negSucc n =>
    have : (toString (Int.negSucc n)).toList = '-' :: (toString (n + 1)).toList := by
      show ("-" ++ Nat.repr (n + 1)).toList = _
      rw [String.toList_append]; rfl
    rw [this]
    exact .minus (digits_nat (n + 1))

end Verif
