import Verif.Sidb.Energy
import Verif.Sidb.ThreeModel

/-!
# Model of population stability and band bending resilience

`algorithms/simulation/sidb/physical_population_stability.hpp` and `band_bending_resilience.hpp`. Infinity is `none`.
-/
namespace Verif.SidbAnalysis

open Verif.Sidb

/-- `transition_type`, physical_population_stability.hpp:34-52. -/
inductive Transition where
  | neuToNeg
  | negToNeu
  | neuToPos
  | posToNeu
  deriving DecidableEq

/-- `population_stability_information`, physical_population_stability.hpp:63-84, without the distances, which are functions
of the potentials; a cell is the index of its SiDB. -/
structure Info where
  pots : Transition → Option (Nat × Rat)
  critical : Option Nat
  energy : Rat

/-- `x < transition_potentials.at(t).second`. -/
def below (x : Rat) : Option (Nat × Rat) → Bool
  | none => true
  | some (_, y) => decide (x < y)

/-- Assignment of a transition potential if it is smaller. -/
def better (pots : Transition → Option (Nat × Rat)) (t : Transition) (i : Nat) (x : Rat) : Transition → Option (Nat × Rat) :=
  if below x (pots t) then fun t' => if t' = t then some (i, x) else pots t' else pots

/-- `handle_negative_charges`, physical_population_stability.hpp:259-276. -/
def handleNegative (E : Env) (v : Rat) (i : Nat) (pots : Transition → Option (Nat × Rat)) : Transition → Option (Nat × Rat) :=
  better pots .negToNeu i (absR (-v + E.muMinus))

/-- `handle_neutral_charges`, physical_population_stability.hpp:289-322. -/
def handleNeutral (E : Env) (v : Rat) (i : Nat) (pots : Transition → Option (Nat × Rat)) : Transition → Option (Nat × Rat) :=
  let pots := if absR (-v + E.muMinus) < absR (-v + E.muPlus) then better pots .neuToNeg i (absR (-v + E.muMinus)) else pots
  better pots .neuToPos i (absR (-v + E.muPlus))

/-- `handle_positive_charges`, physical_population_stability.hpp:335-352. -/
def handlePositive (E : Env) (v : Rat) (i : Nat) (pots : Transition → Option (Nat × Rat)) : Transition → Option (Nat × Rat) :=
  better pots .posToNeu i (absR (-v + E.muPlus))

/-- The body of `foreach_cell`, physical_population_stability.hpp:174-202. -/
def handle (E : Env) (c : Charge) (v : Rat) (i : Nat) (pots : Transition → Option (Nat × Rat)) : Transition → Option (Nat × Rat) :=
  match c with
  | .neg => handleNegative E v i pots
  | .neu => handleNeutral E v i pots
  | .pos => handlePositive E v i pots

/-- `get_local_potential`, charge_distribution_surface.hpp:1037-1045. -/
def localPot (E : Env) (c : Nat → Charge) (i : Nat) : Rat := E.fromScratch c i + E.ext i

/-- The loop over the cells, physical_population_stability.hpp:165-202, up to `n`. -/
def transitions (E : Env) (c : Nat → Charge) (v : Nat → Rat) : Nat → Transition → Option (Nat × Rat)
  | 0 => fun _ => none
  | n + 1 => handle E (c n) (v n) n (transitions E c v n)

/-- The loop over the transitions in the order of the hash map, physical_population_stability.hpp:205-217: the critical cell
and the smallest potential so far. -/
def criticalLoop (pots : Transition → Option (Nat × Rat)) : List Transition → Option (Nat × Rat) → Option (Nat × Rat)
  | [], m => m
  | t :: ts, m =>
    match pots t with
    | none => criticalLoop pots ts m
    | some (i, x) => criticalLoop pots ts (if below x m then some (i, x) else m)

/-- A charge distribution of the result of QuickExact with its potentials. -/
def surfaceOf (E : Env) (b : Nat) (l : List Charge) : Cds :=
  { initNegative E b with charge := ofList' l, intPot := E.fromScratch (ofList' l) }
where
  /-- Charge states by index. -/
  ofList' (l : List Charge) : Nat → Charge := fun i => l.getD i .neu

/-- Lines 163-217 of physical_population_stability.hpp. -/
def infoOf (E : Env) (b : Nat) (order : List Transition) (l : List Charge) : Info :=
  let s := surfaceOf E b l
  let pots := transitions E s.charge (localPot E s.charge) E.n
  ⟨pots, (criticalLoop pots order none).map Prod.fst, recomputeEnergy E s⟩

/-- The charge index of a result, quickexact.hpp:331. -/
def indexOf (E : Env) (b : Nat) (l : List Charge) : Nat := toIndex b E.n none (surfaceOf E b l).charge

/-- `physical_population_stability`, physical_population_stability.hpp:135-222, for the charge distributions that QuickExact
returned; `sort` is `std::ranges::sort` by energy (377-378). -/
def populationStability (E : Env) (b : Nat) (order : List Transition) (sort : List (Rat × Nat) → List (Rat × Nat))
    (results : List (List Charge)) : List Info :=
  (sort (results.map fun l => (recomputeEnergy E (surfaceOf E b l), indexOf E b l))).filterMap fun e =>
    (results.find? fun l => indexOf E b l == e.2).map (infoOf E b order)

/-! ## Band bending resilience -/

/-- The smaller one of a potential and the minimum so far. -/
def lower (p : Option (Nat × Rat)) (m : Option Rat) : Option Rat :=
  match p, m with
  | none, m => m
  | some (_, x), none => some x
  | some (_, x), some y => if x < y then some x else some y

/-- The body of the loop of `band_bending_resilience`, band_bending_resilience.hpp:71-97, where `stab` is the population
stability of the layout. -/
def resilienceStep (t : Option Transition) (order : List Transition) (stab : List Info) (m : Option Rat) : Option Rat :=
  match stab with
  | [] => m
  | g :: _ => match t with
    | some t => lower (g.pots t) m
    | none => order.foldl (fun m t => lower (g.pots t) m) m

/-- `band_bending_resilience`, band_bending_resilience.hpp:65-99: `layout` is the layout, `patterns` are the layouts that the
iterator over the input patterns shows, `stab` is `physical_population_stability`. The iterator works on a copy of the layout
(bdl_input_iterator.hpp:86), which the loop does not read. -/
def bandBendingResilience {Lyt : Type} (stab : Lyt → List Info) (t : Option Transition) (order : List Transition) (layout : Lyt)
    (patterns : List Lyt) : Option Rat :=
  patterns.foldl (fun m _ => resilienceStep t order (stab layout) m) none

end Verif.SidbAnalysis
