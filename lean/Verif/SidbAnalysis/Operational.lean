import Verif.SidbAnalysis.Bdl
import Verif.Sidb.Energy
import Verif.Sidb.Spec

/-!
# Model of the operational check of SiDB gates

`algorithms/simulation/sidb/is_operational.hpp`. What the physical simulation says about the layout under an input
pattern is a parameter (`Instance`): the simulators are modelled in `Verif.Sidb`. Assertions are not modelled; reading
beyond the end of a vector is `none`.
-/
namespace Verif.SidbAnalysis.Operational

open Verif.Sidb Verif.SidbAnalysis.Bdl

/-- The directions of wires, cell_ports.hpp, `port_direction::cardinal`, as far as wires use them. -/
inductive Dir | none | north | east | south | west
deriving DecidableEq, Repr

/-- `bdl_wire`, detect_bdl_wires.hpp:65-82. -/
structure Wire (α : Type) where
  pairs : List (Pair α)
  dir : Dir

/-- A charge distribution. -/
abbrev Dist (α : Type) := α → Charge

/-- The members of `is_operational_impl` that do not depend on the input pattern, is_operational.hpp:897-942. -/
structure Gate (α : Type) where
  /-- number of input patterns, `truth_table.front().num_bits()` -/
  bits : Nat
  tts : List (Nat → Bool)
  outPairs : List (Pair α)
  inWires : List (Wire α)
  outWires : List (Wire α)
  canvas : List α

/-- `operational_analysis_strategy`, is_operational.hpp:98. -/
inductive Strategy | simulationOnly | filterOnly | filterThenSimulation
deriving DecidableEq, Repr

/-- `is_operational_params`, as far as used. -/
structure Params where
  base : Nat
  rejectKinks : Bool
  strategy : Strategy
  eps : Rat

/-- What is known about the layout under one input pattern: `can_positive_charges_occur`, whether the simulation finds
charge distributions, its ground states, physical validity and energy of a charge distribution, and the charge
distribution after `update_charge_state_of_dependent_cell`. -/
structure Instance (α : Type) where
  positive : Bool
  found : Bool
  ground : List (Dist α)
  valid : Dist α → Bool
  energy : Dist α → Rat
  dependent : Dist α → Dist α

/-- `operational_status`, is_operational.hpp:50-60. -/
inductive Status | operational | nonOperational
deriving DecidableEq, Repr

/-- `non_operationality_reason`, is_operational.hpp:149. -/
inductive Reason | logicMismatch | positive | kinks | none
deriving DecidableEq, Repr

variable {α : Type}

/-- `encodes_bit_one` and `encodes_bit_zero`, is_operational.hpp:1143-1173. -/
def encodes (c : Dist α) (p : Pair α) (d : Dir) (bit : Bool) : Bool :=
  if d = .south ∨ d = .east ∨ d = .none then
    if bit then decide (c p.upper = .neu) && decide (c p.lower = .neg)
    else decide (c p.upper = .neg) && decide (c p.lower = .neu)
  else
    if bit then decide (c p.upper = .neg) && decide (c p.lower = .neu)
    else decide (c p.upper = .neu) && decide (c p.lower = .neg)

/-- The loop over the output pairs of `verify_logic_match_of_cds`, is_operational.hpp:496-523, from output `k` on:
whether all outputs are as expected. -/
def outputsMatch (g : Gate α) (c : Dist α) (i : Nat) : Nat → List (Pair α) → Option Bool
  | _, [] => some true
  | k, p :: l =>
    if c p.lower = c p.upper then some false
    else
      match g.tts[k]?, g.outWires[k]? with
      | some t, some w => if encodes c p w.dir (t i) then outputsMatch g c i (k + 1) l else some false
      | _, _ => none

/-- `check_existence_of_kinks_in_input_wires`, is_operational.hpp:1075-1099, from bit `k` on for the reversed wires. -/
def inputKinks (c : Dist α) (i : Nat) : Nat → List (Wire α) → Bool
  | _, [] => false
  | k, w :: l =>
    (w.pairs.any fun p => decide (p.type ≠ .input) && !encodes c p w.dir (i.testBit k)) || inputKinks c i (k + 1) l

/-- `check_existence_of_kinks_in_output_wires`, is_operational.hpp:1110-1134, from wire `k` on. -/
def outputKinks (g : Gate α) (c : Dist α) (i : Nat) : Nat → List (Wire α) → Option Bool
  | _, [] => some false
  | k, w :: l =>
    if w.pairs.isEmpty then outputKinks g c i (k + 1) l
    else
      match g.tts[k]? with
      | none => none
      | some t =>
        if w.pairs.any fun p => !encodes c p w.dir (t i) then some true else outputKinks g c i (k + 1) l

/-- `verify_logic_match_of_cds`, is_operational.hpp:481-546. -/
def verify (g : Gate α) (prm : Params) (positive : Bool) (c : Dist α) (i : Nat) : Option (Status × Reason) :=
  if prm.base = 2 ∧ positive = true then some (.nonOperational, .positive)
  else
    match outputsMatch g c i 0 g.outPairs with
    | none => none
    | some false => some (.nonOperational, .logicMismatch)
    | some true =>
      if prm.rejectKinks then
        if inputKinks c i 0 g.inWires.reverse then some (.nonOperational, .kinks)
        else
          match outputKinks g c i 0 g.outWires with
          | none => none
          | some true => some (.nonOperational, .kinks)
          | some false => some (.operational, .none)
      else some (.operational, .none)

/-! ## Filter -/

/-- Assignment of a charge state. -/
def assign [DecidableEq α] (c : Dist α) (a : α) (q : Charge) : Dist α := fun b => if b = a then q else c b

/-- The two assignments to the dots of a pair in is_operational.hpp:702-705; with `up` the upper dot is neutral. -/
def setPair [DecidableEq α] (up : Bool) (c : Dist α) (p : Pair α) : Dist α :=
  if up then assign (assign c p.upper .neu) p.lower .neg else assign (assign c p.upper .neg) p.lower .neu

/-- The assignments for one input wire, is_operational.hpp:691-753. -/
def setInputWire [DecidableEq α] (bit : Bool) (c : Dist α) (w : Wire α) : Dist α :=
  w.pairs.foldl (fun c p =>
    if p.type = .input then c
    else if w.dir = .south ∨ w.dir = .east then setPair bit c p else setPair (!bit) c p) c

/-- The loop of `set_charge_distribution_of_input_pins`, is_operational.hpp:689-754, over the reversed wires. -/
def setInputWires [DecidableEq α] (i : Nat) : Nat → List (Wire α) → Dist α → Dist α
  | _, [], c => c
  | k, w :: l, c => setInputWires i (k + 1) l (setInputWire (i.testBit k) c w)

/-- The assignments for one output wire, is_operational.hpp:769-846. -/
def setOutputWire [DecidableEq α] (bit : Bool) (c : Dist α) (w : Wire α) : Dist α :=
  w.pairs.foldl (fun c p =>
    if w.dir = .south ∨ w.dir = .east then setPair bit c p
    else if bit = true ∧ p.type = .input then c
    else if w.dir = .none then setPair bit c p
    else setPair (!bit) c p) c

/-- The loop of `set_charge_distribution_of_output_pins`, is_operational.hpp:767-847. -/
def setOutputWires [DecidableEq α] (o : Nat) : Nat → List (Wire α) → Dist α → Dist α
  | _, [], c => c
  | k, w :: l, c => setOutputWires o (k + 1) l (setOutputWire (o.testBit k) c w)

/-- Both, is_operational.hpp:364-365 and 879-880. All other dots are negatively charged (line 687). -/
def pins [DecidableEq α] (g : Gate α) (i o : Nat) : Dist α :=
  setOutputWires o 0 g.outWires (setInputWires i 0 g.inWires.reverse fun _ => .neg)

/-- `evaluate_output`, truth_table_utils.hpp:421-432. -/
def evaluateOutput (i : Nat) : List (Nat → Bool) → Nat
  | [] => 0
  | t :: l => (if t i then 1 else 0) + 2 * evaluateOutput i l

/-- All charge distributions in base two of some dots. -/
def allCharges [DecidableEq α] : List α → Dist α → List (Dist α)
  | [], c => [c]
  | a :: l, c => allCharges l (assign c a .neg) ++ allCharges l (assign c a .neu)

/-- The update of the minimal energy, is_operational.hpp:654-657. -/
def lower (eps : Rat) (best : Option Rat) (e : Rat) : Option Rat :=
  match best with
  | none => some e
  | some m => if e + eps < m then some e else some m

/-- `is_physical_validity_feasible`, is_operational.hpp:622-675: all charge distributions of the canvas, where the charge
state of the first dot follows from the others. -/
def feasible [DecidableEq α] (g : Gate α) (I : Instance α) (eps : Rat) (c : Dist α) : Option Rat :=
  match g.canvas with
  | [] => none
  | d :: l => ((((allCharges l (assign c d .neg)).map I.dependent).filter I.valid).map I.energy).foldl (lower eps) none

/-- `is_io_signal_unstable`, is_operational.hpp:861-895. -/
def unstable [DecidableEq α] (g : Gate α) (I : Instance α) (eps : Rat) (i o : Nat) (e : Rat) : Bool :=
  (List.range g.bits).any fun i' => (List.range (2 ^ g.outWires.length)).any fun o' =>
    if o' = o ∧ i' = i then false
    else
      match feasible g I eps (pins g i' o') with
      | none => false
      | some e' => decide (e' + eps < e)

/-- `is_layout_invalid`, is_operational.hpp:348-379: whether there is a reason. -/
def layoutInvalid [DecidableEq α] (g : Gate α) (prm : Params) (I : Instance α) (i : Nat) : Bool :=
  if prm.base = 2 ∧ I.positive = true then true
  else
    match feasible g I prm.eps (pins g i (evaluateOutput i g.tts)) with
    | none => true
    | some e => unstable g I prm.eps i (evaluateOutput i g.tts) e

/-! ## The check -/

/-- The loop over the ground states, is_operational.hpp:442-456; `some none` if it runs to the end. -/
def groundLoop (g : Gate α) (prm : Params) (positive : Bool) (i : Nat) :
    List (Dist α) → Option (Option Reason)
  | [] => some none
  | c :: l =>
    match verify g prm positive c i with
    | none => none
    | some (.nonOperational, .logicMismatch) => some (some .logicMismatch)
    | some (.nonOperational, .kinks) => if prm.rejectKinks then some (some .kinks) else groundLoop g prm positive i l
    | some _ => groundLoop g prm positive i l

/-- The simulation of the input patterns from `i` on, is_operational.hpp:419-457. -/
def simulate (g : Gate α) (prm : Params) (I : Nat → Instance α) : List Nat → Option (Status × Reason)
  | [] => some (.operational, .none)
  | i :: l =>
    if prm.base = 2 ∧ (I i).positive = true then some (.nonOperational, .positive)
    else if (I i).found = false then some (.nonOperational, .logicMismatch)
    else
      match groundLoop g prm (I i).positive i (I i).ground with
      | none => none
      | some (some r) => some (.nonOperational, r)
      | some none => simulate g prm I l

/-- `canvas_filtering_applicable`, is_operational.hpp:951-955. -/
def filtering (g : Gate α) (prm : Params) : Bool :=
  !g.canvas.isEmpty && decide (prm.strategy ≠ .simulationOnly) && prm.rejectKinks

/-- `run`, is_operational.hpp:390-462. -/
def run [DecidableEq α] (g : Gate α) (prm : Params) (I : Nat → Instance α) : Option (Status × Reason) :=
  if filtering g prm && (List.range g.bits).any fun i => layoutInvalid g prm (I i) i then
    some (.nonOperational, .logicMismatch)
  else if prm.strategy = .filterOnly ∧ filtering g prm = true then some (.operational, .none)
  else simulate g prm I (List.range g.bits)

/-- The reasons recorded for one input pattern by
`determine_non_operational_input_patterns_and_non_operationality_reason`, is_operational.hpp:565-599. -/
def patternReasons (g : Gate α) (prm : Params) (I : Instance α) (i : Nat) : Option (List Reason) :=
  if prm.base = 2 ∧ I.positive = true then some [.positive]
  else if I.found = false then some []
  else (I.ground.mapM fun c => verify g prm I.positive c i).map fun l =>
    (l.filter fun r => decide (r.1 = .nonOperational)).map Prod.snd

/-- `operational_input_patterns`, is_operational.hpp:1396-1430. -/
def operationalPatterns (g : Gate α) (prm : Params) (I : Nat → Instance α) : Option (List Nat) :=
  ((List.range g.bits).mapM fun i => patternReasons g prm (I i) i).map fun l =>
    (List.range g.bits).filter fun i => decide (l[i]? = some [])

/-! ## Exhaustive simulation -/

/-- A charge distribution surface with the given charges and the potentials they cause. -/
def surface (E : Env) (c : Dist Nat) : Cds := updateNeglect E ⟨c, fun _ => 0, false, 0, 2, 0⟩

/-- The instance for a layout with the environment `E`, simulated exhaustively in base two
(`physical_simulation_of_layout`, is_operational.hpp:1020-1026); `d` is the first dot of the canvas. The ground states
are those within the error margin of the least energy, sidb_simulation_result.hpp:76-113; their order is that of the
simulation. -/
def Instance.ofEnv (E : Env) (d : Nat) : Instance Nat :=
  let energy := fun c => recomputeEnergy E (surface E c)
  let res := ((exgs E 2).getD []).map ofList
  { positive := canPositiveOccur E
    found := !res.isEmpty
    ground := res.filter fun c => res.all fun c' => decide (energy c - energy c' < E.eps)
    valid := fun c => (validityCheck E (surface E c)).valid
    energy := energy
    dependent := fun c => (updateDependent E false d (surface E c)).charge }

end Verif.SidbAnalysis.Operational
