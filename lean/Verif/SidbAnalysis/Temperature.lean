import Verif.Sidb.EnergyDistProps
import Mathlib.Analysis.SpecialFunctions.Exp
import Mathlib.Data.Rat.Floor

/-!
# Model of state types, occupation probabilities and critical temperatures

`algorithms/simulation/sidb/{calculate_energy_and_state_type,occupation_probability_of_excited_states,
critical_temperature}.hpp`. Energies and temperatures are rational numbers, Boltzmann factors and probabilities are
real numbers instead of `double`s. The error margin is a parameter where nothing depends on its value.
-/
namespace Verif.SidbAnalysis

open Verif.Sidb

/-- `state_type`, calculate_energy_and_state_type.hpp:33-44. -/
inductive StateType where
  | accepted
  | rejected
  deriving DecidableEq

/-- A physically valid charge distribution: energy and the charge states of the lower SiDBs of the output pairs. -/
structure GState where
  energy : Rat
  outputs : List Charge
  deriving DecidableEq

/-- The loop over the outputs, calculate_energy_and_state_type.hpp:88-99. -/
def outputType : List Charge → List Bool → StateType
  | c :: cs, b :: bs => if decide (-c.sign ≠ 0) ≠ b then .rejected else outputType cs bs
  | _, _ => .accepted

/-- What `calculate_energy_and_state_type_with_kinks_accepted` appends for one energy,
calculate_energy_and_state_type.hpp:84-102. -/
def typesAt (eps e : Rat) (spec : List Bool) (l : List GState) : List (Rat × StateType) :=
  (l.filter fun s => decide (absR (s.energy - e) < eps)).map fun s => (e, outputType s.outputs spec)

/-- `calculate_energy_and_state_type_with_kinks_accepted`, calculate_energy_and_state_type.hpp:64-108: any list that
the (unstable) sorting by energy can produce. -/
def KinksAccepted (eps : Rat) (d : List (Rat × Nat)) (spec : List Bool) (l : List GState) (out : List (Rat × StateType)) : Prop :=
  out.Perm (d.flatMap fun u => typesAt eps u.1 spec l) ∧ out.Pairwise fun a b => a.1 ≤ b.1

/-- What `calculate_energy_and_state_type_with_kinks_rejected` appends for one energy,
calculate_energy_and_state_type.hpp:140-159. A state is its energy and whether `verify_logic_match` calls it
operational. -/
def kinksAt (eps e : Rat) : List (Rat × Bool) → List (Rat × StateType)
  | [] => []
  | s :: l =>
    if absR (s.1 - e) < eps then (e, .accepted) :: (if s.2 then kinksAt eps e l else [(e, .rejected)])
    else kinksAt eps e l

/-- `calculate_energy_and_state_type_with_kinks_rejected`, calculate_energy_and_state_type.hpp:124-163. -/
def kinksRejected (eps : Rat) (d : List (Rat × Nat)) (l : List (Rat × Bool)) : List (Rat × StateType) :=
  d.flatMap fun u => kinksAt eps u.1 l

/-! ## Occupation probabilities -/

/-- `EV_TO_JOULE / BOLTZMANN_CONSTANT`, constants.hpp:30-42. -/
def evOverK : Rat := 160217660 / 138064852 * 10000

/-- `calculate_boltzmann_factor`, occupation_probability_of_excited_states.hpp:31-36. -/
noncomputable def boltzmannFactor (energy minEnergy temperature : Rat) : ℝ :=
  Real.exp (-(((energy - minEnergy) * evOverK / temperature : Rat) : ℝ))

/-- `std::ranges::min_element` by energy, occupation_probability_of_excited_states.hpp:58-61. -/
def minState (best : Rat) : List (Rat × StateType) → Rat
  | [] => best
  | s :: l => minState (if s.1 < best then s.1 else best) l

/-- `occupation_probability_gate_based`, occupation_probability_of_excited_states.hpp:47-82. -/
noncomputable def probGate (l : List (Rat × StateType)) (t : Rat) : ℝ :=
  match l with
  | [] => 0
  | s :: l' =>
    let m := minState s.1 l'
    ((s :: l').foldl (fun p x => if x.2 = .rejected then p + boltzmannFactor x.1 m t else p) 0) /
      ((s :: l').foldl (fun z x => z + boltzmannFactor x.1 m t) 0)

/-- `std::round`: halves are rounded away from zero. -/
def roundAway (x : Rat) : Int := if x < 0 then -⌊-x + 1 / 2⌋ else ⌊x + 1 / 2⌋

/-- `round_to_n_decimal_places(_, 6)`, math_utils.hpp:30-34. -/
def round6 (x : Rat) : Rat := roundAway (x * 1000000) / 1000000

/-- `constants::ERROR_MARGIN`, constants.hpp:18 -/
def margin : Rat := 1 / 1000000

/-- The condition of occupation_probability_of_excited_states.hpp:120-121. -/
def isExcited (minEnergy e : Rat) : Bool := decide (margin < absR (round6 e - round6 minEnergy))

/-- `occupation_probability_non_gate_based`, occupation_probability_of_excited_states.hpp:92-128, for the
distribution in the order of the map. -/
noncomputable def probNonGate (d : List (Rat × Nat)) (t : Rat) : ℝ :=
  match d with
  | [] => 0
  | u :: d' =>
    ((u :: d').foldl (fun p x => if isExcited u.1 x.1 then p + x.2 * boltzmannFactor x.1 u.1 t else p) 0) /
      ((u :: d').foldl (fun z x => z + x.2 * boltzmannFactor x.1 u.1 t) 0)

/-! ## Critical temperatures -/

/-- The temperatures 0.01, 0.02, ..., critical_temperature.hpp:361-364 and 445-448. -/
def temps (n : Nat) : List Rat := (List.range n).map fun i : Nat => ((i : Rat) + 1) / 100

open Classical in
/-- The loop over the temperatures, critical_temperature.hpp:367-384 and 450-465, for the occupation probability `p`
and the threshold `1 - confidence_level`; the last argument is the member `critical_temperature`. -/
noncomputable def scan (maxT : Rat) (p : Rat → ℝ) (thr : ℝ) : List Rat → Rat → Rat
  | [], ct => ct
  | t :: ts, ct =>
    if thr < p t ∧ t < ct then t
    else scan maxT p thr ts (if absR (t - maxT) < 1 / 1000 ∧ t < ct then maxT else ct)

/-- `determine_critical_temperature`, critical_temperature.hpp:439-466. -/
noncomputable def determine (maxT conf : Rat) (l : List (Rat × StateType)) (ct : Rat) : Rat :=
  scan maxT (probGate l) ((1 - conf : Rat) : ℝ) (temps ⌊maxT * 100⌋.toNat) ct

/-- The returned value of `is_ground_state_transparent`, critical_temperature.hpp:406-432. -/
def transparent (minEnergy : Rat) : List (Rat × StateType) → Bool
  | [] => false
  | s :: l => (decide (absR (round6 s.1 - round6 minEnergy) < margin) && decide (s.2 = .accepted)) || transparent minEnergy l

/-- What the simulation of one input pattern yields. -/
inductive Pattern where
  /-- positive charges can occur, critical_temperature.hpp:232-236 -/
  | positive
  /-- no physically valid charge distribution, critical_temperature.hpp:241-245 -/
  | noState
  /-- energies and state types, the first of them given separately, critical_temperature.hpp:249-264 -/
  | states (s : Rat × StateType) (l : List (Rat × StateType))

/-- The loop over the input patterns, critical_temperature.hpp:227-280. -/
noncomputable def gateLoop (maxT conf : Rat) : List Pattern → Rat → Rat
  | [], ct => ct
  | .positive :: _, _ => 0
  | .noState :: _, _ => 0
  | .states s l :: ps, ct =>
    gateLoop maxT conf ps (if transparent s.1 (s :: l) then determine maxT conf (s :: l) ct else 0)

/-- `critical_temperature_gate_based`, critical_temperature.hpp:126-131, 180-282 and 600-625, for a layout with
`numCells` SiDBs. -/
noncomputable def criticalTemperatureGate (maxT conf : Rat) (numCells : Nat) (ps : List Pattern) : Rat :=
  if numCells = 0 then 0 else if 1 < numCells then gateLoop maxT conf ps maxT else maxT

/-- `critical_temperature_non_gate_based`, critical_temperature.hpp:287-385 and 712-731, for the energy distribution
of the simulation result; `none` is a failed QuickSim simulation. -/
noncomputable def criticalTemperatureNonGate (maxT conf : Rat) : Option (List (Rat × Nat)) → Rat
  | none => maxT
  | some d => scan maxT (probNonGate d) ((1 - conf : Rat) : ℝ) (temps (roundAway (maxT * 100)).toNat) maxT

end Verif.SidbAnalysis
