import Verif.SidbAnalysis.Distance

/-!
# C104: conversion of potentials to distances

## Specification
-/
namespace Verif.Distance

/-- The screened Coulomb potential of an elementary charge at a distance in nanometers. -/
noncomputable def screened (P : Params) (d : ℝ) : ℝ :=
  P.kE * P.charge / (P.epsilonR * (d * 1e-9)) * Real.exp (-d / P.lambdaTf)

/-- Physically meaningful parameters. -/
structure Params.Meaningful (P : Params) : Prop where
  kE : 0 < P.kE
  charge : 0 < P.charge
  epsilonR : 0 < P.epsilonR
  lambdaTf : 0 < P.lambdaTf

/-! ## Lemmas -/

theorem potential_eq {P : Params} (h : P.Meaningful) (d : ℝ) : P.potential d = screened P d := by
  unfold Params.potential screened Params.k
  have := h.epsilonR.ne'
  rw [mul_div_assoc, div_self this, mul_one, div_div]
  ring

theorem screened_pos {P : Params} (h : P.Meaningful) {d : ℝ} (hd : 0 < d) : 0 < screened P d := by
  unfold screened
  have h1 := h.kE
  have h2 := h.charge
  have h3 := h.epsilonR
  have := Real.exp_pos (-d / P.lambdaTf)
  positivity

theorem screened_anti {P : Params} (h : P.Meaningful) {a b : ℝ} (ha : 0 < a) (hab : a < b) : screened P b < screened P a := by
  unfold screened
  have h1 := h.kE
  have h2 := h.charge
  have h3 := h.epsilonR
  have h4 := h.lambdaTf
  have hb : 0 < b := ha.trans hab
  refine mul_lt_mul'' ?_ ?_ (by positivity) (Real.exp_pos _).le
  · apply div_lt_div_of_pos_left (by positivity) (by positivity)
    apply mul_lt_mul_of_pos_left _ h3
    apply mul_lt_mul_of_pos_right hab (by norm_num)
  · rw [Real.exp_lt_exp]
    apply div_lt_div_of_pos_right _ h4
    linarith

theorem screened_small {P : Params} (h : P.Meaningful) {v : ℝ} (hv : 0 < v) : ∃ x : ℝ, 0 < x ∧ ∀ d, x ≤ d → screened P d ≤ v := by
  have h1 := h.kE
  have h2 := h.charge
  have h3 := h.epsilonR
  have h4 := h.lambdaTf
  have hc : 0 < P.kE * P.charge / (P.epsilonR * 1e-9) := by positivity
  refine ⟨P.kE * P.charge / (P.epsilonR * 1e-9) / v, div_pos hc hv, fun d hd => ?_⟩
  have hd0 : 0 < d := (div_pos hc hv).trans_le hd
  have he : Real.exp (-d / P.lambdaTf) ≤ 1 := by
    rw [Real.exp_le_one_iff]
    exact div_nonpos_of_nonpos_of_nonneg (by linarith) h4.le
  have hs : P.kE * P.charge / (P.epsilonR * (d * 1e-9)) = P.kE * P.charge / (P.epsilonR * 1e-9) / d := by
    rw [div_div]
    congr 1
    ring
  unfold screened
  rw [hs]
  have hq : P.kE * P.charge / (P.epsilonR * 1e-9) / d ≤ v := by
    rw [div_le_iff₀ hd0]
    rw [div_le_iff₀ hv] at hd
    linarith
  calc _ ≤ P.kE * P.charge / (P.epsilonR * 1e-9) / d * 1 := mul_le_mul_of_nonneg_left he (div_pos hc hd0).le
    _ ≤ v := by rw [mul_one]; exact hq

theorem stepSize_pos (n : Nat) : 0 < stepSize n := by unfold stepSize; positivity

theorem loop_some (P : Params) (step v : ℝ) : ∀ (fuel : Nat) (d r : ℝ), P.loop step v fuel d = some r →
    ∃ n : ℕ, r = d + n * step ∧ P.potential r ≤ v ∧ ∀ m : ℕ, m < n → v < P.potential (d + m * step)
  | 0, _, _, h => by cases h
  | fuel + 1, d, r, h => by
    rw [Params.loop] at h
    split_ifs at h with hp
    · obtain ⟨n, h1, h2, h3⟩ := loop_some P step v fuel _ r h
      refine ⟨n + 1, by rw [h1]; push_cast; ring, h2, fun m hm => ?_⟩
      cases m with
      | zero => simpa using hp
      | succ m =>
        have := h3 m (by omega)
        rwa [show d + ((m + 1 : ℕ) : ℝ) * step = d + step + m * step by push_cast; ring]
    · rw [Option.some.injEq] at h
      exact ⟨0, by simp [h], by rw [← h]; exact not_lt.1 hp, fun m hm => by omega⟩

theorem loop_ends (P : Params) (step v : ℝ) : ∀ (n : Nat) (d : ℝ), P.potential (d + n * step) ≤ v →
    ∃ r, P.loop step v (n + 1) d = some r
  | 0, d, h => by
    rw [Params.loop, if_neg]
    · exact ⟨_, rfl⟩
    · simpa using h
  | n + 1, d, h => by
    rw [Params.loop]
    split_ifs with hp
    · refine loop_ends P step v n _ ?_
      rwa [show d + step + (n : ℝ) * step = d + ((n + 1 : ℕ) : ℝ) * step by push_cast; ring]
    · exact ⟨_, rfl⟩

/-! ## Theorems -/

/-- C104. The distance is a multiple of the step size, the smallest one at which the screened Coulomb potential does not exceed
the given potential. -/
theorem C104_smallest (P : Params) (h : P.Meaningful) (v : ℝ) (precision fuel : Nat) (d : ℝ)
    (hd : P.convert v precision fuel = some d) :
    ∃ n : ℕ, 0 < n ∧ d = n * (10 : ℝ) ^ (-(precision : ℤ)) ∧ screened P d ≤ v ∧
      ∀ m : ℕ, 0 < m → m < n → v < screened P (m * (10 : ℝ) ^ (-(precision : ℤ))) := by
  obtain ⟨n, h1, h2, h3⟩ := loop_some P _ v fuel _ d hd
  refine ⟨n + 1, by omega, by rw [h1]; unfold stepSize; push_cast; ring, by rwa [← potential_eq h], fun m hm hmn => ?_⟩
  obtain ⟨m, rfl⟩ : ∃ k, m = k + 1 := ⟨m - 1, by omega⟩
  have := h3 m (by omega)
  rw [potential_eq h] at this
  unfold stepSize at this
  rwa [show ((m + 1 : ℕ) : ℝ) * (10 : ℝ) ^ (-(precision : ℤ)) = (10 : ℝ) ^ (-(precision : ℤ)) + m * (10 : ℝ) ^ (-(precision : ℤ)) by
    push_cast; ring]

/-- C104. If the screened Coulomb potential at a distance is the given potential, the result is not smaller than this distance and
exceeds it by less than the step size. -/
theorem C104_precise (P : Params) (h : P.Meaningful) (x : ℝ) (hx : 0 < x) (precision fuel : Nat) (d : ℝ)
    (hd : P.convert (screened P x) precision fuel = some d) : x ≤ d ∧ d < x + (10 : ℝ) ^ (-(precision : ℤ)) := by
  obtain ⟨n, hn, h1, h2, h3⟩ := C104_smallest P h _ precision fuel d hd
  have hs : (0 : ℝ) < (10 : ℝ) ^ (-(precision : ℤ)) := by positivity
  have hd0 : 0 < d := by rw [h1]; positivity
  refine ⟨not_lt.1 fun hlt => absurd (screened_anti h hd0 hlt) (not_lt.2 h2), ?_⟩
  by_contra hcon
  rw [not_lt] at hcon
  obtain ⟨m, rfl⟩ : ∃ k, n = k + 1 := ⟨n - 1, by omega⟩
  rw [h1] at hcon
  push_cast at hcon
  have hm : x ≤ m * (10 : ℝ) ^ (-(precision : ℤ)) := by linarith
  have hm0 : 0 < m := by
    rcases Nat.eq_zero_or_pos m with rfl | hm0
    · simp at hm; linarith
    · exact hm0
  have := h3 m hm0 (by omega)
  rcases hm.eq_or_lt with he | hlt
  · rw [← he] at this
    exact lt_irrefl _ this
  · exact lt_asymm this (screened_anti h hx hlt)

/-- C104. The conversion of a positive potential ends. Missing: other potentials, for which this is false, see C104_false_ends. -/
theorem C104_ends_partial (P : Params) (h : P.Meaningful) (v : ℝ) (hv : 0 < v) (precision : Nat) :
    ∃ fuel d, P.convert v precision fuel = some d := by
  obtain ⟨x, _, hx⟩ := screened_small h hv
  obtain ⟨n, hn⟩ := exists_nat_ge (x / stepSize precision)
  have hs := stepSize_pos precision
  rw [div_le_iff₀ hs] at hn
  obtain ⟨d, hd⟩ := loop_ends P (stepSize precision) v n (stepSize precision) (by
    rw [potential_eq h]
    exact hx _ (by linarith))
  exact ⟨n + 1, d, hd⟩

/-- C104. The conversion of a potential that is not positive never ends. -/
theorem C104_false_ends (P : Params) (h : P.Meaningful) (v : ℝ) (hv : v ≤ 0) (precision fuel : Nat) :
    P.convert v precision fuel = none := by
  have key : ∀ (fuel : Nat) (d : ℝ), 0 < d → P.loop (stepSize precision) v fuel d = none := by
    intro fuel
    induction fuel with
    | zero => intro d _; rfl
    | succ fuel ih =>
      intro d hd
      rw [Params.loop, if_pos]
      · exact ih _ (add_pos hd (stepSize_pos precision))
      · rw [potential_eq h]
        exact lt_of_le_of_lt hv (screened_pos h hd)
  exact key fuel _ (stepSize_pos precision)

/-! ## Examples -/

/-- Simple parameters. -/
noncomputable def unit : Params := ⟨1e-9, 1, 1, 1⟩

theorem unit_meaningful : unit.Meaningful := ⟨by norm_num [unit], by norm_num [unit], by norm_num [unit], by norm_num [unit]⟩

/-- The potential at two nanometers is converted to two nanometers. -/
example : ∃ fuel, unit.convert (screened unit 2) 0 fuel = some 2 := by
  obtain ⟨fuel, d, hd⟩ := C104_ends_partial unit unit_meaningful (screened unit 2) (screened_pos unit_meaningful two_pos) 0
  have h1 := C104_precise unit unit_meaningful 2 two_pos 0 fuel d hd
  obtain ⟨n, _, h2, _⟩ := C104_smallest unit unit_meaningful _ 0 fuel d hd
  simp only [CharP.cast_eq_zero, neg_zero, zpow_zero, mul_one] at h1 h2
  rw [h2] at h1
  have ha : 2 ≤ n := by exact_mod_cast h1.1
  have hb : n < 3 := by
    have : (n : ℝ) < (3 : ℕ) := by push_cast; linarith [h1.2]
    exact_mod_cast this
  have hn : n = 2 := by omega
  exact ⟨fuel, by rw [hd, h2, hn]; norm_num⟩

end Verif.Distance
