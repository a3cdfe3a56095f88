import Mathlib.Tactic.NormNum
import Verif.Lemmas.Parse

/-! # Lemmas about decimal numerals -/

set_option linter.unusedSimpArgs false

namespace Semla

open Spec

theorem digit_toNat {d : Nat} (h : d < 10) : (UInt8.ofNat (48 + d)).toNat = 48 + d := by
  simp [UInt8.toNat_ofNat]; omega

theorem digit_range {d : Nat} (h : d < 10) :
    (48 : UInt8) ≤ UInt8.ofNat (48 + d) ∧ UInt8.ofNat (48 + d) ≤ 57 := by
  rw [UInt8.le_iff_toNat_le, UInt8.le_iff_toNat_le, digit_toNat h]
  constructor
  · show 48 ≤ _; omega
  · show _ ≤ 57; omega

theorem decAux_spec (fuel n : Nat) (acc : Bytes) (h : n < fuel) :
    ∃ ds, decAux fuel n acc = ds ++ acc ∧ IsNumeral n ds ∧
      ∀ k, n < 10 ^ (k + 1) → ds.length ≤ k + 1 := by
  induction fuel generalizing n acc with
  | zero => omega
  | succ f ih =>
    have hlt : n % 10 < 10 := Nat.mod_lt _ (by omega)
    unfold decAux
    by_cases hn : n < 10
    · refine ⟨[UInt8.ofNat (48 + n % 10)], by simp [hn], ⟨by simp, ?_, ?_, ?_⟩, ?_⟩
      · intro c hc; simp only [List.mem_singleton] at hc; subst hc; exact digit_range hlt
      · simp only [List.foldl_cons, List.foldl_nil, digit_toNat hlt]
        omega
      · intro h; simpa using h
      · intro k _; simp
    · simp only [hn, if_false]
      obtain ⟨ds, h1, ⟨h2, h3, h4, h5⟩, h6⟩ := ih (n / 10) (UInt8.ofNat (48 + n % 10) :: acc) (by omega)
      refine ⟨ds ++ [UInt8.ofNat (48 + n % 10)], by rw [h1]; simp, ⟨by simp, ?_, ?_, ?_⟩, ?_⟩
      · intro c hc
        simp only [List.mem_append, List.mem_singleton] at hc
        rcases hc with hc | rfl
        · exact h3 c hc
        · exact digit_range hlt
      · rw [List.foldl_append, h4]
        simp only [List.foldl_cons, List.foldl_nil, digit_toNat hlt]
        omega
      · intro hh
        exfalso
        rw [List.head?_append_of_ne_nil _ h2] at hh
        rw [h5 hh] at h4
        simp only [List.foldl_cons, List.foldl_nil] at h4
        have : (48 : UInt8).toNat = 48 := rfl
        omega
      · intro k hk
        cases k with
        | zero => simp at hk; omega
        | succ k =>
          have := h6 k (by rw [Nat.pow_succ] at hk; omega)
          simp; omega

theorem decNat_numeral (n : Nat) : IsNumeral n (decNat n) := by
  obtain ⟨ds, h1, h2, _⟩ := decAux_spec (n + 1) n [] (by omega)
  unfold decNat; rw [h1]; simpa using h2

theorem decNat_length (n k : Nat) (h : n < 10 ^ (k + 1)) : (decNat n).length ≤ k + 1 := by
  obtain ⟨ds, h1, _, h2⟩ := decAux_spec (n + 1) n [] (by omega)
  unfold decNat; rw [h1]; simpa using h2 k h

theorem decNat_ne_nil (n : Nat) : decNat n ≠ [] := (decNat_numeral n).1

theorem decNat_digits (n : Nat) : ∀ c ∈ decNat n, isDigit c = true := fun c hc =>
  (isDigit_iff c).2 ((decNat_numeral n).2.1 c hc)

theorem digitsVal_decNat (n : Nat) : digitsVal (decNat n) = n := (decNat_numeral n).2.2.1

/-- A `long` prints in at most 20 characters. -/
theorem decInt_length (n : Int) (h1 : longMin ≤ n) (h2 : n ≤ longMax) :
    (decInt n).length ≤ 20 := by
  unfold longMin at h1; unfold longMax at h2
  have : n.natAbs < 10 ^ (18 + 1) := by norm_num; omega
  have := decNat_length n.natAbs 18 this
  unfold decInt; split <;> simp <;> omega

/-- A `size_t` prints in at most 20 characters. -/
theorem decNat_length_size (n : Nat) (h : n < sizeMod) : (decNat n).length ≤ 20 := by
  unfold sizeMod at h
  exact decNat_length n 19 (by norm_num; omega)

theorem decNat_denotes (n : Nat) (h : (n : Int) ≤ longMax) : Denotes (decNat n) n := by
  unfold longMax at h
  refine ⟨[], [], decNat n, [], by simp, by simp, by simp, decNat_ne_nil n,
    (decNat_numeral n).2.1, by simp, ?_⟩
  rw [(decNat_numeral n).2.2.1]
  simp
  omega

theorem decInt_denotes (n : Int) (h1 : longMin ≤ n) (h2 : n ≤ longMax) : Denotes (decInt n) n := by
  unfold longMin at h1; unfold longMax at h2
  unfold decInt
  split
  · refine ⟨[], b!"-", decNat n.natAbs, [], by simp, by simp, by simp, decNat_ne_nil _,
      (decNat_numeral _).2.1, by simp, ?_⟩
    rw [(decNat_numeral _).2.2.1, show (n.natAbs : Int) = -n by omega]
    simp
    omega
  · refine ⟨[], [], decNat n.natAbs, [], by simp, by simp, by simp, decNat_ne_nil _,
      (decNat_numeral _).2.1, by simp, ?_⟩
    rw [(decNat_numeral _).2.2.1, show (n.natAbs : Int) = n by omega]
    simp
    omega

/-- The bytes of a printed integer are digits or the minus sign. -/
theorem decInt_bytes (n : Int) : ∀ c ∈ decInt n, isDigit c = true ∨ c = 45 := by
  unfold decInt
  split
  · intro c hc
    simp only [List.mem_cons] at hc
    rcases hc with rfl | hc
    · right; rfl
    · left; exact decNat_digits _ c hc
  · intro c hc; left; exact decNat_digits _ c hc

theorem decInt_ne_nil (n : Int) : decInt n ≠ [] := by
  unfold decInt; split
  · simp
  · exact decNat_ne_nil _

end Semla
