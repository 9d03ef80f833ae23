import Mathlib.Data.Rat.Defs
import Mathlib.Algebra.Order.Ring.Rat

/-!
# Model of charge distributions of SiDB layouts and of their exact simulation

`technology/charge_distribution_surface.hpp`, `technology/sidb_charge_state.hpp`,
`algorithms/simulation/sidb/{exhaustive_ground_state_simulation,quickexact,can_positive_charges_occur}.hpp`.

SiDBs are addressed by their position in `sidb_order`. The potential between two SiDBs, the potentials caused
by defects and the external potentials are arbitrary rational numbers (every finite `double` is rational);
additions and multiplications are exact, i.e. rounding is not modelled. Charge indices are unbounded: the
64-bit wrap-around for more than 40 (64) SiDBs in base three (two) is not modelled.
-/
namespace Verif.Sidb

/-- `sidb_charge_state` without `NONE`, sidb_charge_state.hpp:19-25. -/
inductive Charge where
  | neg
  | neu
  | pos
  deriving DecidableEq, Repr

/-- `charge_state_to_sign`, sidb_charge_state.hpp:53-70. -/
def Charge.sign : Charge → Int
  | .neg => -1
  | .neu => 0
  | .pos => 1

/-- `sign_to_charge_state(digit - 1)`, sidb_charge_state.hpp:77-98, for digits of base at most three. -/
def Charge.ofDigit : Nat → Charge
  | 0 => .neg
  | 1 => .neu
  | _ => .pos

/-- `charge_state_to_sign(cs) + 1` -/
def Charge.digit : Charge → Nat
  | .neg => 0
  | .neu => 1
  | .pos => 2

/-- The data of a charge distribution surface that the simulation does not change: number of SiDBs,
`pot_mat`, `local_pot_caused_by_defects`, `local_ext_pot`, `simulation_parameters` and `ERROR_MARGIN`. -/
structure Env where
  n : Nat
  pot : Nat → Nat → Rat
  defectPot : Nat → Rat
  ext : Nat → Rat
  muMinus : Rat
  muPlus : Rat
  eps : Rat

/-- The loop `for (i = 0; i < n; ++i) collect += f(i)`. -/
def sumTo : Nat → (Nat → Rat) → Rat
  | 0, _ => 0
  | n + 1, f => sumTo n f + f n

namespace Env

/-- `determine_effective_charge_transition_thresholds`, charge_distribution_surface.hpp:456-469. -/
def negUB (E : Env) (i : Nat) : Rat := E.ext i - E.muMinus + E.eps
/-- line 464 -/
def posLB (E : Env) (i : Nat) : Rat := E.ext i - E.muPlus - E.eps
/-- line 465 -/
def neuLB (E : Env) (i : Nat) : Rat := E.ext i - E.muMinus - E.eps
/-- line 466 -/
def neuUB (E : Env) (i : Nat) : Rat := E.ext i - E.muPlus + E.eps

/-- `update_local_internal_potential(NEGLECT)`, charge_distribution_surface.hpp:932-943. -/
def fromScratch (E : Env) (c : Nat → Charge) (i : Nat) : Rat :=
  E.defectPot i + sumTo E.n fun j => E.pot i j * (c j).sign

end Env

/-- `charge_distribution_storage`: `cell_charge`, `local_int_pot`, `validity`, `charge_index_and_base`,
`max_charge_index`. -/
structure Cds where
  charge : Nat → Charge
  intPot : Nat → Rat
  valid : Bool
  index : Nat
  base : Nat
  maxIndex : Nat

/-- Assignment to an element of a vector. -/
def setAt {α : Type} (f : Nat → α) (i : Nat) (x : α) : Nat → α := fun j => if j = i then x else f j

/-- The condition `valid`, charge_distribution_surface.hpp:1314-1325. -/
def populationOk (E : Env) (s : Cds) (i : Nat) : Bool :=
  match s.charge i with
  | .neg => decide (-s.intPot i < E.negUB i)
  | .pos => decide (-s.intPot i > E.posLB i)
  | .neu => decide (-s.intPot i > E.neuLB i) && decide (-s.intPot i < E.neuUB i)

/-- `hop_del`, charge_distribution_surface.hpp:1272-1277. -/
def hopDel (E : Env) (s : Cds) (i j : Nat) : Rat :=
  E.ext i - E.ext j + (1 / 2) * (s.intPot i - s.intPot j - E.pot i j)

/-- `is_configuration_stable`, charge_distribution_surface.hpp:1270-1304. -/
def configurationStable (E : Env) (s : Cds) : Bool :=
  (List.range E.n).all fun i => decide (s.charge i = .pos) ||
    (List.range E.n).all fun j => decide ((s.charge j).sign ≤ (s.charge i).sign) || !decide (hopDel E s i j < -E.eps)

/-- `validity_check`, charge_distribution_surface.hpp:1309-1337. -/
def validityCheck (E : Env) (s : Cds) : Cds :=
  { s with valid := (List.range E.n).all (populationOk E s) && configurationStable E s }

/-- `update_local_internal_potential(NEGLECT)`, charge_distribution_surface.hpp:930-944. -/
def updateNeglect (E : Env) (s : Cds) : Cds := { s with intPot := E.fromScratch s.charge }

/-- `update_local_internal_potential(CONSIDER)` for one changed cell with its previous sign,
charge_distribution_surface.hpp:951-959, 966-972. -/
def updateChanged (E : Env) (s : Cds) (k : Nat) (oldSign : Int) : Cds :=
  { s with intPot := fun j => s.intPot j + E.pot k j * (((s.charge k).sign - oldSign : Int) : Rat) }

/-- Assignment of the charge states that differ from the current ones, with the history of the changed cells and
their previous signs, as in charge_distribution_surface.hpp:2353-2364, 2387-2398. -/
def applyChanges : List (Nat × Charge) → (Nat → Charge) → (Nat → Charge) × List (Nat × Int)
  | [], c => (c, [])
  | (k, x) :: rest, c =>
    if c k ≠ x then
      let r := applyChanges rest (setAt c k x)
      (r.1, (k, (c k).sign) :: r.2)
    else applyChanges rest c

/-- `update_local_internal_potential(CONSIDER)` in base three, charge_distribution_surface.hpp:964-973. -/
def updateHistory (E : Env) (s : Cds) (hist : List (Nat × Int)) : Cds :=
  hist.foldl (fun s h => updateChanged E s h.1 h.2) s

/-- `update_charge_state_of_dependent_cell`, charge_distribution_surface.hpp:1934-2001, for the dependent cell
`d`; `three` tells whether there are cells in `three_state_cells`. -/
def updateDependent (E : Env) (three : Bool) (d : Nat) (s : Cds) : Cds :=
  let p := -s.intPot d
  let change (new : Charge) : Cds :=
    if s.charge d ≠ new then
      { s with
        charge := setAt s.charge d new
        intPot := fun i => if i ≠ d then s.intPot i + E.pot i d * ((-(s.charge d).sign + new.sign : Int) : Rat) else s.intPot i }
    else s
  if p < E.negUB d then change .neg
  else if p > E.posLB d then
    if s.base = 3 || three then change .pos else s
  else change .neu

/-! ## Charge indices -/

/-- `charge_distribution_to_index` without three-state cells, charge_distribution_surface.hpp:1383-1472
(lines 1422-1430 with, 1460-1466 without a dependent cell): `counter` counts the cells other than the dependent
one. -/
def toIndexLoop (b n : Nat) (dep : Option Nat) (c : Nat → Charge) : Nat → Nat × Nat
  | 0 => (0, 0)
  | i + 1 =>
    let (idx, counter) := toIndexLoop b n dep c i
    if dep = some i then (idx, counter)
    else (idx + (c i).digit * b ^ ((if dep.isSome then n - 1 else n) - 1 - counter), counter + 1)

/-- The charge index of a distribution. -/
def toIndex (b n : Nat) (dep : Option Nat) (c : Nat → Charge) : Nat := (toIndexLoop b n dep c n).1

/-- The loop of `index_to_charge_distribution`, charge_distribution_surface.hpp:2429-2450. `r` is `counter + 1`;
`none` if the counter becomes negative (out-of-bounds access). The first argument bounds the number of
iterations; the quotient is enough. -/
def decodeLoop (b : Nat) (dep : Option Nat) : Nat → Nat → Nat → (Nat → Charge) → Option ((Nat → Charge) × Nat)
  | 0, _, r, c => some (c, r)
  | fuel + 1, q, r, c =>
    if q = 0 then some (c, r)
    else
      let r' := if 0 < r ∧ dep = some (r - 1) then r - 1 else r
      if r' = 0 then none
      else decodeLoop b dep fuel (q / b) (r' - 1) (setAt c (r' - 1) (.ofDigit (q % b)))

/-- `index_to_charge_distribution`, charge_distribution_surface.hpp:2411-2462; `scratch` stands for
`FROM_SCRATCH`. -/
def indexToCharge (b n : Nat) (dep : Option Nat) (scratch : Bool) (idx : Nat) (c : Nat → Charge) : Option (Nat → Charge) :=
  if idx = 0 then some fun _ => .neg
  else
    (decodeLoop b dep idx idx n c).map fun r =>
      if scratch then fun i => if i < r.2 then .neg else r.1 i else r.1

/-! ## Exhaustive simulation -/

/-- `increase_charge_index_by_one()` with default arguments, charge_distribution_surface.hpp:1495-1515, without
a dependent cell. -/
def increaseIndex (E : Env) (s : Cds) : Option Cds :=
  if s.index ≥ s.maxIndex then some s
  else
    (indexToCharge s.base E.n none false (s.index + 1) s.charge).map fun c =>
      validityCheck E (updateNeglect E { s with index := s.index + 1, charge := c })

/-- The charges of the SiDBs as a list, `get_all_sidb_charges`. -/
def Cds.charges (s : Cds) (n : Nat) : List Charge := (List.range n).map s.charge

/-- The loop of exhaustive_ground_state_simulation.hpp:63-76 with a bound on the number of iterations. -/
def exgsLoop (E : Env) : Nat → Cds → Option (List (List Charge))
  | 0, s => some (if s.valid then [s.charges E.n] else [])
  | fuel + 1, s =>
    if s.index < s.maxIndex then
      (increaseIndex E s).bind fun s' => (exgsLoop E fuel s').map fun rest =>
        (if s.valid then [s.charges E.n] else []) ++ rest
    else some (if s.valid then [s.charges E.n] else [])

/-- The all-negative surface with physical parameters assigned,
exhaustive_ground_state_simulation.hpp:56-61 and charge_distribution_surface.hpp:519-530. -/
def initNegative (E : Env) (base : Nat) : Cds :=
  validityCheck E (updateNeglect E ⟨fun _ => .neg, fun _ => 0, false, 0, base, base ^ E.n - 1⟩)

/-- `exhaustive_ground_state_simulation`, exhaustive_ground_state_simulation.hpp:37-81 (no external potentials):
the charge distributions of the result in their order. -/
def exgs (E : Env) (base : Nat) : Option (List (List Charge)) :=
  if E.n = 0 then some []
  else exgsLoop E (base ^ E.n) (initNegative E base)

/-! ## Detection of forced charge states -/

/-- `negative_sidb_detection`, charge_distribution_surface.hpp:779-797. -/
def negativeDetection (E : Env) (s : Cds) : List Nat :=
  (List.range E.n).filter fun i => decide (-(s.intPot i + E.ext i) + E.muMinus < -E.eps)

/-- `can_positive_charges_occur`, can_positive_charges_occur.hpp:28-52. -/
def canPositiveOccur (E : Env) : Bool :=
  (List.range E.n).any fun i => decide (-E.fromScratch (fun _ => .neg) i > E.posLB i)

/-- `is_three_state_simulation_required` without a dependent cell, charge_distribution_surface.hpp:1622-1679. -/
def threeStateRequired (E : Env) : Bool :=
  (List.range E.n).any fun i => !decide (-E.fromScratch (fun _ => .neg) i < E.posLB i)

/-! ## QuickExact -/

/-- Gray code word, gray_code_iterator.hpp:321-324. -/
def gray (i : Nat) : Nat := i ^^^ (i >>> 1)

/-- The position of the lowest set bit of `x`, charge_distribution_surface.hpp:2034-2037 (words are not bounded
to 64 bits). -/
def lowestBit (x : Nat) : Nat := ((List.range x).find? fun j => x.testBit j).getD 64

/-- `charge_index_gray_code_to_charge_distribution`, charge_distribution_surface.hpp:2018-2062, followed by the
update of the potentials with history in base two (945-960): only the SiDB of the first differing bit is
changed; the dependent cell `d` is skipped. -/
def grayStep (E : Env) (d : Nat) (new old : Nat) (s : Cds) : Cds :=
  if new ^^^ old = 0 then s
  else
    let j := lowestBit (new ^^^ old)
    let signOld : Int := if old.testBit j then -1 else 0
    let k := if j < d then j else j + 1
    let s1 := { s with charge := setAt s.charge k (if new.testBit j then .neg else .neu) }
    updateChanged E s1 k signOld

/-- `assign_charge_index_by_gray_code(new, old, VARIABLE, KEEP_OLD_ENERGY_VALUE, CONSIDER)`,
charge_distribution_surface.hpp:2108-2119, 1248-1263. -/
def assignGray (E : Env) (d : Nat) (new old : Nat) (s : Cds) : Cds :=
  if new ≤ s.maxIndex then validityCheck E (updateDependent E false d (grayStep E d new old { s with index := new }))
  else s

/-- The loop of `two_state_simulation`, quickexact.hpp:307-334: remaining iterations, iteration, previous word,
surface; `emit` is the charge distribution added to the result. -/
def grayLoop (E : Env) (d : Nat) (emit : Cds → List Charge) : Nat → Nat → Nat → Cds → List (List Charge)
  | 0, _, _, _ => []
  | fuel + 1, i, prev, s =>
    let s' := assignGray E d (gray i) prev s
    (if s'.valid then [emit s'] else []) ++ grayLoop E d emit fuel (i + 1) (gray i) s'

/-- The SiDBs that remain after the pre-assigned negative ones have been erased, quickexact.hpp:507-521. -/
def remaining (E : Env) (pre : List Nat) : List Nat := (List.range E.n).filter fun i => decide (i ∉ pre)

/-- The surface over the remaining SiDBs, with the erased ones as negatively charged defects of the same
material parameters, quickexact.hpp:117, 242-273. -/
def reduced (E : Env) (pre : List Nat) : Env :=
  let rem := remaining E pre
  { E with
    n := rem.length
    pot := fun a b => E.pot (rem.getD a 0) (rem.getD b 0)
    defectPot := fun a => pre.foldl (fun x p => x + E.pot (rem.getD a 0) p * (-1)) (E.defectPot (rem.getD a 0))
    ext := fun a => E.ext (rem.getD a 0) }

/-- The result for a charge distribution over the remaining SiDBs: `charge_lyt` is all-negative,
quickexact.hpp:321-332. -/
def embed (E : Env) (pre : List Nat) (s : Cds) : List Charge :=
  (List.range E.n).map fun i => if i ∈ pre then .neg else s.charge ((remaining E pre).idxOf i)

/-- The surface before the loop, quickexact.hpp:242-306: all SiDBs neutral, the dependent cell (the first one)
updated, base two assigned. `base` is the base of the given parameters. -/
def quickexactStart (R : Env) (base : Nat) : Cds :=
  let s := updateDependent R false 0 (updateNeglect R ⟨fun _ => .neu, fun _ => 0, false, 0, base, 0⟩)
  { validityCheck R s with base := 2, maxIndex := 2 ^ (R.n - 1) - 1 }

/-- `quickexact` if two-state simulation is conducted, quickexact.hpp:86-171: `auto` tells whether automatic
base number detection is on (otherwise the validity of a single SiDB has been determined before the external
potentials were assigned, quickexact.hpp:83, 143-159, 492-493). -/
def quickexactTwo (E : Env) (auto : Bool) (base : Nat) : Option (List (List Charge)) :=
  let s0 := initNegative { E with ext := fun _ => 0 } base
  let pre := negativeDetection E s0
  if E.n > 1 then
    if remaining E pre = [] then some [s0.charges E.n]
    else
      let R := reduced E pre
      some (grayLoop R 0 (embed E pre) (2 ^ (R.n - 1)) 0 0 (quickexactStart R base))
  else if E.n = 1 then
    let s1 := if auto then validityCheck E (updateNeglect E s0) else s0
    exgsLoop E 2 { s1 with base := 2, maxIndex := 2 ^ E.n - 1 }
  else some []

end Verif.Sidb
