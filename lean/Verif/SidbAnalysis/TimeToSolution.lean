import Verif.SidbAnalysis.ResultsProps
import Mathlib.Analysis.SpecialFunctions.Pow.Real

/-!
# Model of the time to solution

`algorithms/simulation/sidb/time_to_solution.hpp`. Run times are rational numbers, the time to solution is a real
number instead of a `double`.
-/
namespace Verif.SidbAnalysis

open Verif.Sidb

/-- A simulation result: charge indices with energies, and the run time. -/
structure Run where
  dists : List (Nat × Rat)
  runtime : Rat

/-- A `double` that may be infinite or not a number. -/
inductive Dbl where
  | nan
  | inf
  | val (x : ℝ)

/-- The statistics of time_to_solution.hpp:55-77; `none` is not a number. -/
structure Tts where
  /-- in percent -/
  acc : Option Rat
  mean : Option Rat
  tts : Dbl

/-- Division of a number by a count, `0 / 0` is not a number. The numerators are zero if the count is. -/
def divCount (x : Rat) (n : Nat) : Option Rat := if n = 0 then none else some (x / n)

/-- The loop over the heuristic results, time_to_solution.hpp:196-206, in a release build: the number of results with
the ground state and the total run time. -/
def tally (eps : Rat) (exact : Run) : List Run → Nat × Rat → Nat × Rat
  | [], a => a
  | h :: hs, a =>
    tally eps exact hs
      (if isGroundState false eps h.dists exact.dists = some true then a.1 + 1 else a.1, a.2 + h.runtime)

/-- `time_to_solution_for_given_simulation_results`, time_to_solution.hpp:185-238. -/
noncomputable def ttsGiven (eps conf : Rat) (exact : Run) (runs : List Run) : Tts :=
  let t := tally eps exact runs (0, 0)
  let mean := divCount t.2 runs.length
  let acc := divCount t.1 runs.length
  match acc, mean with
  | some a, some m =>
    { acc := some (a * 100), mean := some m
      tts := if a = 1 then .val m else if a = 0 then .inf
        else .val ((m : ℝ) * Real.log (1 - (conf : ℝ)) / Real.log (1 - (a : ℝ))) }
  | _, _ => { acc := none, mean := none, tts := .nan }

/-- `time_to_solution`, time_to_solution.hpp:97-168, for a layout with `numCells` SiDBs; `none` is a QuickSim run
without a result: it is not stored, the branch of lines 150-153 is never taken. -/
noncomputable def timeToSolution (eps conf : Rat) (numCells : Nat) (exact : Run) (runs : List (Option Run)) : Tts :=
  if numCells = 0 then { acc := some 0, mean := some 0, tts := .inf }
  else ttsGiven eps conf exact (runs.filterMap id)

end Verif.SidbAnalysis
