/-
Decimal notation: what is printed is read back.
-/
import Verif.SelectorParser

namespace Verif
open SelParser

theorem showNat_eq (n : Nat) : showNat n = Nat.toDigits 10 n := by unfold showNat; simp

theorem showNat_ne_nil (n : Nat) : showNat n ≠ [] := by rw [showNat_eq]; exact Nat.toDigits_ne_nil

theorem showNat_digits (n : Nat) : ∀ c ∈ showNat n, c.isDigit = true := by
  rw [showNat_eq]; intro c hc; exact Nat.isDigit_of_mem_toDigits (by decide) (by decide) hc

theorem digitsValue_showNat (n : Nat) : digitsValue (showNat n) = n := by
  rw [showNat_eq]; exact Nat.ofDigitChars_ten_toDigits

theorem showNat_zero : showNat 0 = ['0'] := rfl

theorem showNat_pos (n : Nat) (h : 0 < n) : ∃ c ds, showNat n = c :: ds ∧ nonzeroDigit c = true ∧ ∀ d ∈ ds, d.isDigit = true := by
  have key : ∀ n : Nat, 0 < n → ∃ c ds, Nat.toDigits 10 n = c :: ds ∧ nonzeroDigit c = true := by
    intro n
    induction n using Nat.strongRecOn with
    | ind n ih =>
      intro h
      by_cases hl : n < 10
      · refine ⟨n.digitChar, [], Nat.toDigits_of_lt_base hl, ?_⟩
        have := Nat.toNat_digitChar_of_lt_ten hl
        simp only [nonzeroDigit, charRange, this, Bool.and_eq_true, decide_eq_true_eq]
        omega
      · obtain ⟨c, ds, h1, h2⟩ := ih (n / 10) (by omega) (by omega)
        exact ⟨c, ds ++ [Nat.digitChar (n % 10)], by rw [Nat.toDigits_of_base_le (by decide) (by omega), h1]; rfl, h2⟩
  obtain ⟨c, ds, h1, h2⟩ := key n h
  have h3 := showNat_digits n
  rw [showNat_eq, h1] at h3
  exact ⟨c, ds, by rw [showNat_eq, h1], h2, fun d hd => h3 d (by simp [hd])⟩

theorem showInt_nonneg (n : Nat) : showInt n = showNat n := rfl

theorem showInt_neg (n : Nat) : showInt (Int.negSucc n) = '-' :: showNat (n + 1) := by
  have : toString (Int.negSucc n) = "-" ++ Nat.repr (n + 1) := rfl
  unfold showInt
  rw [this, String.toList_append]
  rw [showNat_eq, ← Nat.toList_repr]
  rfl

theorem parseI64_showInt (n : Int) (h : i64 n) : parseI64 (showInt n) = some n := by
  obtain ⟨h1, h2⟩ := h
  cases n with
  | ofNat m =>
    change parseI64 (showNat m) = _
    have hd := showNat_digits m
    have hv := digitsValue_showNat m
    have hlt : m < 2 ^ 63 := by
      have : (m : Int) < 2 ^ 63 := h2
      omega
    cases hs : showNat m with
    | nil => exact absurd hs (showNat_ne_nil m)
    | cons c ds =>
      rw [hs] at hd hv
      have hc := hd c (by simp)
      have e1 : c ≠ '-' := by rintro rfl; revert hc; decide
      have e2 : c ≠ '+' := by rintro rfl; revert hc; decide
      have hall : (c :: ds).all Char.isDigit = true := List.all_eq_true.mpr hd
      unfold parseI64
      split
      · rename_i heq; injection heq with heq _; exact absurd heq e1
      · rename_i heq; injection heq with heq _; exact absurd heq e2
      · rw [if_pos (by rw [hall, hv]; simp [hlt]), hv]; rfl
  | negSucc m =>
    rw [showInt_neg]
    have hd := showNat_digits (m + 1)
    have hv := digitsValue_showNat (m + 1)
    have hne := showNat_ne_nil (m + 1)
    have hall : (showNat (m + 1)).all Char.isDigit = true := List.all_eq_true.mpr hd
    have hle : m + 1 ≤ 2 ^ 63 := by
      have : -(2 ^ 63 : Int) ≤ -((m : Int) + 1) := by rw [← Int.negSucc_eq]; exact h1
      omega
    unfold parseI64
    simp only [hall, hv, hle, decide_true, Bool.and_true, Bool.not_eq_true']
    rw [if_pos (by cases hs : showNat (m + 1) with | nil => exact absurd hs hne | cons => rfl)]
    rfl

theorem showInt_no_dot (n : Int) : (showInt n).contains '.' = false := by
  have hn : ∀ m, '.' ∉ showNat m := fun m hm => by have := showNat_digits m _ hm; revert this; decide
  cases n with
  | ofNat m => rw [show showInt (Int.ofNat m) = showNat m from rfl]; simpa using hn m
  | negSucc m => rw [showInt_neg]; simp; exact hn _

end Verif
