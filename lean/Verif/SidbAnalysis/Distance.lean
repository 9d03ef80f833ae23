import Mathlib.Analysis.SpecialFunctions.Pow.Real

/-!
# Model of `potential_to_distance_conversion.hpp`

Floating-point numbers are real numbers here.
-/
namespace Verif.Distance

/-- The physical parameters read here, sidb_simulation_parameters.hpp:40-66, and the constants `K_E` and `ELEMENTARY_CHARGE`. -/
structure Params where
  kE : ℝ
  charge : ℝ
  epsilonR : ℝ
  lambdaTf : ℝ

/-- `k`, sidb_simulation_parameters.hpp:64-67. -/
noncomputable def Params.k (P : Params) : ℝ := P.kE / P.epsilonR

/-- `calculate_potential_for_given_distance`, potential_to_distance_conversion.hpp:37-41. -/
noncomputable def Params.potential (P : Params) (d : ℝ) : ℝ :=
  P.k * P.epsilonR / P.epsilonR / (d * 1e-9) * Real.exp (-d / P.lambdaTf) * P.charge

/-- `step_size`, potential_to_distance_conversion.hpp:44. -/
noncomputable def stepSize (precision : Nat) : ℝ := (10 : ℝ) ^ (-(precision : ℤ))

open Classical in
/-- The loop, potential_to_distance_conversion.hpp:51-55; the first argument bounds the number of tests. -/
noncomputable def Params.loop (P : Params) (step potential : ℝ) : Nat → ℝ → Option ℝ
  | 0, _ => none
  | fuel + 1, d => if P.potential d > potential then P.loop step potential fuel (d + step) else some d

/-- `potential_to_distance_conversion`, potential_to_distance_conversion.hpp:30-58, with a bound for the number of tests. -/
noncomputable def Params.convert (P : Params) (potential : ℝ) (precision fuel : Nat) : Option ℝ :=
  P.loop (stepSize precision) potential fuel (stepSize precision)

end Verif.Distance
