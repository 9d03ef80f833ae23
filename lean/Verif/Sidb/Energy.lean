import Verif.Sidb.Model

/-!
# Model of energies, energy distributions and QuickSim

`technology/charge_distribution_surface.hpp` (energy, `adjacent_search`),
`algorithms/simulation/sidb/{energy_distribution,quicksim}.hpp`.
-/
namespace Verif.Sidb

/-- `recompute_electrostatic_potential_energy`, charge_distribution_surface.hpp:1207-1226. The potential at the
defects caused by the SiDBs is taken to be mediated by the same material as that of the defects at the SiDBs,
so that lines 1219-1224 contribute the same amount as the defects' part of `local_int_pot`; the interaction
between defects does not depend on the charge distribution and is left out. -/
def recomputeEnergy (E : Env) (s : Cds) : Rat :=
  sumTo E.n (fun i => E.ext i * (s.charge i).sign) +
    (1 / 2) * (sumTo E.n (fun i => s.intPot i * (s.charge i).sign) + sumTo E.n fun i => E.defectPot i * (s.charge i).sign)

/-- The same for the engine QuickSim, charge_distribution_surface.hpp:1195-1205. -/
def recomputeEnergyQuickSim (E : Env) (s : Cds) : Rat :=
  (1 / 2) * sumTo E.n fun i => s.intPot i * (s.charge i).sign

/-! ## Energy distributions -/

/-- `std::set::insert`: sorted, without duplicates. -/
def setInsert {α : Type} [LT α] [DecidableRel (α := α) (· < ·)] (x : α) : List α → List α
  | [] => [x]
  | y :: ys => if x < y then x :: y :: ys else if y < x then y :: setInsert x ys else y :: ys

/-- `std::fabs` -/
def absR (x : Rat) : Rat := if x < 0 then -x else x

/-- energy_distribution.hpp:196-201; a surface is a pair of its charge index and its energy. -/
def uniqueIndices (l : List (Nat × Rat)) : List Nat := l.foldl (fun acc p => setInsert p.1 acc) []

/-- The loop over the unique charge indices, energy_distribution.hpp:208-237: unique energies and one surface per
index. -/
def collectUnique (eps : Rat) (l : List (Nat × Rat)) : List Nat → List Rat × List (Nat × Rat) → List Rat × List (Nat × Rat)
  | [], acc => acc
  | k :: ks, (energies, cds) =>
    match l.find? fun p => decide (p.1 = k) with
    | none => collectUnique eps l ks (energies, cds)
    | some p =>
      let isUnique := !energies.any fun u => decide (absR (p.2 - u) < eps)
      collectUnique eps l ks (if isUnique then setInsert p.2 energies else energies, cds ++ [p])

/-- `calculate_energy_distribution`, energy_distribution.hpp:181-249: pairs of energy and degeneracy in the order
of the map. -/
def energyDistribution (eps : Rat) (l : List (Nat × Rat)) : List (Rat × Nat) :=
  let r := collectUnique eps l (uniqueIndices l) ([], [])
  r.1.map fun u => (u, r.2.countP fun p => decide (absR (p.2 - u) < eps))

/-- `energy_distribution::degeneracy`, energy_distribution.hpp:90-104. -/
def degeneracyOf (eps : Rat) (d : List (Rat × Nat)) (energy : Rat) : Option Nat :=
  d.findIdx? fun p => decide (absR (p.1 - energy) < eps)

/-! ## QuickSim -/

/-- The surface with its energy. -/
structure Sim where
  cds : Cds
  energy : Rat

/-- `std::accumulate` of the minimum, starting with infinity (`none`), charge_distribution_surface.hpp:1570-1573. -/
def minDist (dist : Nat → Nat → Rat) (u : Nat) (negs : List Nat) : Option Rat :=
  negs.foldl (fun acc o => match acc with
    | none => some (dist u o)
    | some a => some (if dist u o < a then dist u o else a)) none

/-- `adjacent_search`, charge_distribution_surface.hpp:1553-1612: `pick` is the random number. Infinite distances
(no negative SiDB) count as larger than everything. -/
def adjacentSearch (E : Env) (dist : Nat → Nat → Rat) (alpha : Rat) (pick : Nat) (s : Sim) (negs : List Nat) : Sim × List Nat :=
  let unocc := (List.range E.n).filter fun u => decide (s.cds.charge u = .neu)
  let distMax := unocc.foldl (fun m u => match minDist dist u negs with
    | none => m
    | some a => if a > m then a else m) 0
  let candidates := unocc.filter fun u => match minDist dist u negs with
    | none => true
    | some a => decide (a ≥ alpha * distMax)
  if candidates = [] then (s, negs)
  else
    let k := candidates.getD (pick % candidates.length) 0
    ({ cds := { s.cds with
        charge := setAt s.cds.charge k .neg
        intPot := fun i => s.cds.intPot i + -E.pot i k }
       energy := s.energy + -s.cds.intPot k }, negs ++ [k])

/-- `emplace_back` of the surface if it is physically valid: its charges and its energy. -/
def emitSim (E : Env) (s : Sim) : List (List Charge × Rat) := if s.cds.valid then [(s.cds.charges E.n, s.energy)] else []

/-- quicksim.hpp:235-247; `pick` gives the random numbers. -/
def searchLoop (E : Env) (dist : Nat → Nat → Rat) (alpha : Rat) (pick : Nat → Nat) : Nat → Sim → List Nat → List (List Charge × Rat)
  | 0, _, _ => []
  | m + 1, s, negs =>
    let r := adjacentSearch E dist alpha (pick m) s negs
    let s' := { r.1 with cds := validityCheck E r.1.cds }
    emitSim E s' ++ searchLoop E dist alpha pick m s' r.2

/-- `update_after_charge_change()` of a surface of the engine QuickSim, charge_distribution_surface.hpp:1248-1263. -/
def updateSim (E : Env) (s : Sim) (c : Nat → Charge) : Sim :=
  let s1 := updateNeglect E { s.cds with charge := c }
  { cds := validityCheck E s1, energy := recomputeEnergyQuickSim E s1 }

/-- One start SiDB, quicksim.hpp:210-247. -/
def startLoop (E : Env) (dist : Nat → Nat → Rat) (alpha : Rat) (pick : Nat → Nat) (pre : List Nat) (m : Nat) (k : Nat) (s : Sim) :
    List (List Charge × Rat) :=
  let negs := pre ++ [k]
  let s1 := updateSim E s fun i => if i ∈ negs then .neg else .neu
  emitSim E s1 ++ searchLoop E dist alpha pick (m - 1) s1 negs

/-- One thread: `picks` gives the random numbers of each start, quicksim.hpp:184-250. The surface of a start only
hands down what is recomputed. -/
def quicksimThread (E : Env) (dist : Nat → Nat → Rat) (alpha : Rat) (pre unknown : List Nat) (iterations : Nat)
    (picks : Nat → Nat → Nat → Nat) (s : Sim) : List (List Charge × Rat) :=
  (List.range iterations).flatMap fun it => unknown.flatMap fun k => startLoop E dist alpha (picks it k) pre unknown.length k s

/-- The results of several threads come in any order that keeps the order of each thread (the list is guarded by
a mutex, quicksim.hpp:229-230, 244-245). -/
inductive Interleaving {α : Type} : List (List α) → List α → Prop
  | done (ts : List (List α)) (h : ∀ t ∈ ts, t = []) : Interleaving ts []
  | step (ts₁ ts₂ : List (List α)) (x : α) (t r : List α) (h : Interleaving (ts₁ ++ t :: ts₂) r) :
      Interleaving (ts₁ ++ (x :: t) :: ts₂) (x :: r)

/-- The distributions that are checked before the threads start, quicksim.hpp:110-164. -/
def quicksimInitial (E : Env) (s : Sim) : List (List Charge × Rat) :=
  let s1 := updateSim E s fun _ => .neg
  let pre := negativeDetection E s1.cds
  let s2 := updateSim E s1 fun _ => .neu
  let s3 := updateSim E s2 fun i => if i ∈ pre then .neg else .neu
  emitSim E s1 ++ (if pre ≠ [] then emitSim E s2 else []) ++ emitSim E s3

/-- `quicksim`, quicksim.hpp:73-267, if no timeout is reached: `picks` are the random numbers of the threads. -/
def QuickSimResult (E : Env) (dist : Nat → Nat → Rat) (alpha : Rat) (steps threads : Nat)
    (picks : Nat → Nat → Nat → Nat → Nat) (res : List (List Charge × Rat)) : Prop :=
  let s0 : Sim := ⟨initNegative E 2, 0⟩
  let pre := negativeDetection E (updateSim E s0 fun _ => .neg).cds
  let unknown := (List.range E.n).filter fun i => decide (i ∉ pre)
  let num := max threads 1
  ∃ r, Interleaving ((List.range num).map fun z =>
      if pre.length = E.n then [] else quicksimThread E dist alpha pre unknown (max (steps / num) 1) (picks z) s0) r ∧
    res = quicksimInitial E s0 ++ r ∧ steps ≠ 0 ∧ E.n ≠ 0 ∧ res ≠ []

end Verif.Sidb
