import Verif.Sidb.EnergyDistProps

/-!
# Model of the comparison of simulation results

`algorithms/simulation/sidb/{sidb_simulation_result,minimum_energy,is_ground_state,
equivalence_check_for_simulation_results}.hpp`. Energies are rational numbers instead of `double`s and the error
margin is a parameter. A charge distribution is given by its charge index, its energy and, where the code reads
them, its charge states in the order of the SiDBs. `groundstates()` writes the charge index before it reads it
(sidb_simulation_result.hpp:85), so the index is a function of the charge states.
-/
namespace Verif.SidbAnalysis

open Verif.Sidb

/-- `std::min_element` on the energies as used by `minimum_energy_distribution`, minimum_energy.hpp:51-62: the
first smallest element. -/
def minElement (best : Nat × Rat) : List (Nat × Rat) → Nat × Rat
  | [] => best
  | p :: l => minElement (if p.2 < best.2 then p else best) l

/-- `minimum_energy`, minimum_energy.hpp:27-41; `none` is infinity. -/
def minimumEnergy : List (Nat × Rat) → Option Rat
  | [] => none
  | p :: l => some (minElement p l).2

/-- `sidb_simulation_result::groundstates`, sidb_simulation_result.hpp:76-113. -/
def groundstates (eps : Rat) (l : List (Nat × Rat)) : List (Nat × Rat) :=
  match minimumEnergy l with
  | none => []
  | some m => (uniqueIndices l).filterMap fun k => l.find? fun p => decide (p.1 = k ∧ absR (p.2 - m) < eps)

/-- `is_ground_state`, is_ground_state.hpp:28-71; `none` is the failing assertion of lines 44-45, which is only
evaluated in debug builds. -/
def isGroundState (debug : Bool) (eps : Rat) (heuristic exact : List (Nat × Rat)) : Option Bool :=
  if exact.isEmpty then some false
  else
    let ge := groundstates eps exact
    let gh := groundstates eps heuristic
    if debug && !decide (gh.length ≤ ge.length) then none
    else if ge.length ≠ gh.length then some false
    else some (ge.all fun c => gh.any fun d => decide (c.1 = d.1))

/-- What `check_simulation_results_for_equivalence` reads of a charge distribution. -/
structure Dist where
  /-- `get_charge_index_and_base().first` -/
  idx : Nat
  energy : Rat
  /-- charge states in the order of `foreach_cell` -/
  charges : List Charge
  deriving DecidableEq

/-- `std::ranges::sort` by the charge index, here insertion sort: the indices are different, so that every sorting
algorithm gives the same result. -/
def insertByIdx (d : Dist) : List Dist → List Dist
  | [] => [d]
  | e :: l => if d.idx < e.idx then d :: e :: l else e :: insertByIdx d l

/-- See `insertByIdx`. -/
def sortByIdx : List Dist → List Dist
  | [] => []
  | d :: l => insertByIdx d (sortByIdx l)

/-- The number of different indices, equivalence_check_for_simulation_results.hpp:47-51 and 59-63. -/
def numIndices (l : List Dist) : Nat := (l.foldl (fun acc d => setInsert d.idx acc) []).length

/-- The comparison of two charge distributions, equivalence_check_for_simulation_results.hpp:79-100. Both belong to
the same layout. -/
def sameDist (eps : Rat) (a b : Dist) : Bool := decide (¬ eps < absR (a.energy - b.energy)) && decide (a.charges = b.charges)

/-- The numbers of SiDBs of the first distributions differ, equivalence_check_for_simulation_results.hpp:38-45. -/
def frontsDiffer : List Dist → List Dist → Bool
  | a :: _, b :: _ => decide (a.charges.length ≠ b.charges.length)
  | _, _ => false

/-- `check_simulation_results_for_equivalence`, equivalence_check_for_simulation_results.hpp:29-104. The number of
SiDBs of a distribution is the number of its charge states. -/
def checkEquivalence (eps : Rat) (r1 r2 : List Dist) : Bool :=
  if r1.length ≠ r2.length then false
  else if frontsDiffer r1 r2 then false
  else if numIndices r1 ≠ r1.length then false
  else if numIndices r2 ≠ r2.length then false
  else ((sortByIdx r1).zip (sortByIdx r2)).all fun p => sameDist eps p.1 p.2

end Verif.SidbAnalysis
