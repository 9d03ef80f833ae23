import Verif.Sidb.Model
import Mathlib.Data.Nat.Bitwise

/-! Helper lemmas on Gray code words of unbounded length. -/
namespace Verif.Sidb

theorem gray_testBit (i j : Nat) : (gray i).testBit j = (i.testBit j ^^ i.testBit (j + 1)) := by
  simp [gray, Nat.testBit_xor, Nat.testBit_shiftRight, Nat.add_comm]

theorem gray_div (i : Nat) : gray (i / 2) = gray i / 2 := by
  refine Nat.eq_of_testBit_eq fun j => ?_
  rw [gray_testBit, Nat.testBit_div_two, Nat.testBit_div_two, Nat.testBit_div_two, gray_testBit]

theorem gray_inj : ∀ (i j : Nat), gray i = gray j → i = j := by
  intro i
  induction i using Nat.strongRecOn with
  | _ i ih =>
    intro j h
    rcases Nat.eq_zero_or_pos i with hi | hi
    · subst hi
      rcases Nat.eq_zero_or_pos j with hj | hj
      · omega
      · exfalso
        have h0 : gray j = 0 := by rw [← h]; rfl
        have : j = j >>> 1 := by
          have := congrArg (· ^^^ (j >>> 1)) (show j ^^^ (j >>> 1) = 0 from h0)
          simpa [Nat.xor_assoc] using this
        rw [Nat.shiftRight_eq_div_pow] at this
        omega
    · have hd : i / 2 = j / 2 := ih (i / 2) (by omega) (j / 2) (by rw [gray_div, gray_div, h])
      have h0 := congrArg (fun x => Nat.testBit x 0) h
      simp only [gray_testBit, Nat.testBit_succ, hd] at h0
      simp only [Nat.testBit_zero] at h0
      have : (i % 2 = 1) = (j % 2 = 1) := by
        cases hb : (decide (j / 2 % 2 = 1)) <;> simp_all
      have h1 : i % 2 = 1 ↔ j % 2 = 1 := by rw [this]
      omega

theorem gray_lt (m i : Nat) (h : i < 2 ^ m) : gray i < 2 ^ m := by
  refine Nat.xor_lt_two_pow h ?_
  rw [Nat.shiftRight_eq_div_pow]
  exact lt_of_le_of_lt (Nat.div_le_self _ _) h

theorem gray_surj (m g : Nat) (h : g < 2 ^ m) : ∃ i < 2 ^ m, gray i = g := by
  induction m generalizing g with
  | zero => exact ⟨0, by simp, by simp at h; subst h; rfl⟩
  | succ m ih =>
    obtain ⟨k, hk, e⟩ := ih (g / 2) (by rw [Nat.pow_succ] at h; omega)
    refine ⟨2 * k + (g % 2 + k % 2) % 2, by rw [Nat.pow_succ]; omega, ?_⟩
    refine Nat.eq_of_testBit_eq fun j => ?_
    cases j with
    | zero =>
      rw [gray_testBit, Nat.testBit_succ, Nat.testBit_zero, Nat.testBit_zero, Nat.testBit_zero,
        show (2 * k + (g % 2 + k % 2) % 2) / 2 = k by omega, show (2 * k + (g % 2 + k % 2) % 2) % 2 = (g % 2 + k % 2) % 2 by omega]
      rcases Nat.mod_two_eq_zero_or_one g with h1 | h1 <;> rcases Nat.mod_two_eq_zero_or_one k with h2 | h2 <;> simp [h1, h2]
    | succ j =>
      rw [gray_testBit, Nat.testBit_succ, Nat.testBit_succ, show (2 * k + (g % 2 + k % 2) % 2) / 2 = k by omega, ← gray_testBit, e,
        Nat.testBit_div_two]

/-- Consecutive Gray code words differ in exactly one bit. -/
theorem gray_succ (i : Nat) : ∃ t, ∀ j, (gray (i + 1)).testBit j ≠ (gray i).testBit j ↔ j = t := by
  induction i using Nat.strongRecOn with
  | _ i ih =>
    rcases Nat.mod_two_eq_zero_or_one i with h | h
    · refine ⟨0, fun j => ?_⟩
      rw [gray_testBit, gray_testBit]
      cases j with
      | zero =>
        rw [Nat.testBit_succ, Nat.testBit_succ, show (i + 1) / 2 = i / 2 by omega, Nat.testBit_zero, Nat.testBit_zero, Nat.testBit_zero,
          show (i + 1) % 2 = 1 by omega, h]
        simp
      | succ j =>
        simp only [Nat.testBit_succ]
        rw [show (i + 1) / 2 = i / 2 by omega]
        simp
    · obtain ⟨t, ht⟩ := ih (i / 2) (by omega)
      refine ⟨t + 1, fun j => ?_⟩
      cases j with
      | zero =>
        rw [gray_testBit, gray_testBit, Nat.testBit_succ, Nat.testBit_succ, show (i + 1) / 2 = i / 2 + 1 by omega,
          Nat.testBit_zero, Nat.testBit_zero, Nat.testBit_zero, Nat.testBit_zero, show (i + 1) % 2 = 0 by omega, h]
        rcases Nat.mod_two_eq_zero_or_one (i / 2) with h2 | h2
        · rw [show (i / 2 + 1) % 2 = 1 by omega, h2]; simp
        · rw [show (i / 2 + 1) % 2 = 0 by omega, h2]; simp
      | succ j =>
        have := ht j
        rw [gray_testBit, gray_testBit] at this ⊢
        rw [Nat.testBit_succ (i + 1), Nat.testBit_succ i, Nat.testBit_succ (i + 1), Nat.testBit_succ i, show (i + 1) / 2 = i / 2 + 1 by omega, this]
        omega

/-- The position of the lowest set bit, if only one bit is set. -/
theorem lowestBit_single (x t : Nat) (h : ∀ j, x.testBit j = true ↔ j = t) : lowestBit x = t := by
  unfold lowestBit
  have ht : x.testBit t = true := (h t).2 rfl
  have hlt : t < x := lt_of_lt_of_le Nat.lt_two_pow_self (Nat.ge_two_pow_of_testBit ht)
  have : (List.range x).find? (fun j => x.testBit j) = some t := by
    rw [List.find?_range_eq_some]
    refine ⟨ht, List.mem_range.2 hlt, fun j hj => ?_⟩
    simp only [Bool.not_eq_true']
    rw [Bool.eq_false_iff]
    intro hb
    have := (h j).1 hb
    omega
  rw [this]
  rfl

end Verif.Sidb
