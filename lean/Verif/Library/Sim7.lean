import Verif.Library.Tile

/-!
# The SIM7 MolQCA library

Model of `include/fiction/technology/sim7_mol_library.hpp`. The tables are copied from the code.
-/
namespace Verif.Library

open Verif.Cells

/-- `cell_list_to_gate`, fcn_gate_library.hpp:181-185, for `mol_qca_technology::cell_type`, cell_technologies.hpp:220-258. -/
def _root_.Verif.Cells.MolType.gate {N : Nat} (rows : List (List Char)) : Gate N N MolType := fun i j =>
  match (rows.getD i []).getD j ' ' with
  | 'a' => .normal1
  | 'b' => .normal2
  | 'c' => .normal3
  | 'd' => .normal4
  | 'i' => .input
  | 'o' => .output
  | '0' => .const0
  | '1' => .const1
  | _ => .empty

namespace Sim7

/-- `STRAIGHT_INVERTER`, sim7_mol_library.hpp:257-269. -/
def straightInverter : Gate 10 10 MolType := MolType.gate
  [[' ', ' ', ' ', ' ', 'a', 'a', ' ', ' ', ' ', ' '],
   [' ', ' ', ' ', ' ', 'a', 'a', ' ', ' ', ' ', ' '],
   [' ', ' ', 'b', 'b', 'a', 'a', 'b', 'b', ' ', ' '],
   [' ', ' ', 'b', 'b', 'a', 'a', 'b', 'b', ' ', ' '],
   [' ', ' ', 'b', 'b', ' ', ' ', 'b', 'b', ' ', ' '],
   [' ', ' ', ' ', ' ', 'c', 'c', ' ', ' ', ' ', ' '],
   [' ', ' ', ' ', 'd', 'c', 'c', 'd', ' ', ' ', ' '],
   [' ', ' ', ' ', 'd', 'd', 'd', 'd', ' ', ' ', ' '],
   [' ', ' ', ' ', ' ', 'd', 'd', ' ', ' ', ' ', ' '],
   [' ', ' ', ' ', ' ', 'd', 'd', ' ', ' ', ' ', ' ']]

/-- `BENT_INVERTER`, sim7_mol_library.hpp:271-283. -/
def bentInverter : Gate 10 10 MolType := MolType.gate
  [[' ', ' ', ' ', ' ', 'a', 'a', ' ', ' ', ' ', ' '],
   [' ', ' ', ' ', ' ', 'a', 'a', ' ', ' ', ' ', ' '],
   [' ', ' ', ' ', ' ', 'a', 'a', 'b', ' ', ' ', ' '],
   [' ', ' ', ' ', ' ', 'a', 'a', 'b', ' ', 'd', 'd'],
   [' ', ' ', ' ', ' ', 'a', 'a', ' ', 'c', 'c', 'd'],
   [' ', ' ', ' ', ' ', 'b', 'b', ' ', 'c', 'c', 'd'],
   [' ', ' ', ' ', ' ', 'b', 'b', 'b', ' ', 'd', 'd'],
   [' ', ' ', ' ', ' ', 'b', 'b', 'b', ' ', ' ', ' '],
   [' ', ' ', ' ', ' ', ' ', ' ', ' ', ' ', ' ', ' '],
   [' ', ' ', ' ', ' ', ' ', ' ', ' ', ' ', ' ', ' ']]

/-- `BENT_INVERTER_R`, sim7_mol_library.hpp:285-297. -/
def bentInverterR : Gate 10 10 MolType := MolType.gate
  [[' ', ' ', ' ', 'd', 'd', 'd', 'd', ' ', ' ', ' '],
   [' ', ' ', ' ', 'd', 'c', 'c', 'd', ' ', ' ', ' '],
   [' ', ' ', ' ', ' ', 'c', 'c', ' ', ' ', ' ', ' '],
   [' ', ' ', 'b', 'b', ' ', ' ', 'b', 'b', ' ', ' '],
   [' ', ' ', 'b', 'b', 'b', 'a', 'a', 'a', 'a', 'a'],
   [' ', ' ', 'b', 'b', 'b', 'a', 'a', 'a', 'a', 'a'],
   [' ', ' ', ' ', ' ', ' ', ' ', ' ', ' ', ' ', ' '],
   [' ', ' ', ' ', ' ', ' ', ' ', ' ', ' ', ' ', ' '],
   [' ', ' ', ' ', ' ', ' ', ' ', ' ', ' ', ' ', ' '],
   [' ', ' ', ' ', ' ', ' ', ' ', ' ', ' ', ' ', ' ']]

/-- `CONJUNCTION`, sim7_mol_library.hpp:299-311. -/
def conjunction : Gate 10 10 MolType := MolType.gate
  [[' ', ' ', ' ', ' ', '0', '0', ' ', ' ', ' ', ' '],
   [' ', ' ', ' ', ' ', 'a', 'a', ' ', ' ', ' ', ' '],
   [' ', ' ', ' ', ' ', 'a', 'a', ' ', ' ', ' ', ' '],
   [' ', ' ', ' ', 'b', 'b', 'b', 'b', ' ', ' ', ' '],
   ['d', 'd', 'c', 'b', 'b', 'b', 'b', 'a', 'a', 'a'],
   ['d', 'd', 'c', 'b', 'b', 'b', 'b', 'a', 'a', 'a'],
   [' ', ' ', ' ', 'b', 'b', 'b', 'b', ' ', ' ', ' '],
   [' ', ' ', ' ', ' ', 'a', 'a', ' ', ' ', ' ', ' '],
   [' ', ' ', ' ', ' ', 'a', 'a', ' ', ' ', ' ', ' '],
   [' ', ' ', ' ', ' ', 'a', 'a', ' ', ' ', ' ', ' ']]

/-- `CONJUNCTION_D`, sim7_mol_library.hpp:313-325. -/
def conjunctionD : Gate 10 10 MolType := MolType.gate
  [[' ', ' ', ' ', ' ', '0', '0', ' ', ' ', ' ', ' '],
   [' ', ' ', ' ', ' ', 'a', 'a', ' ', ' ', ' ', ' '],
   [' ', ' ', ' ', ' ', 'a', 'a', ' ', ' ', ' ', ' '],
   [' ', ' ', ' ', 'b', 'b', 'b', 'b', ' ', ' ', ' '],
   ['a', 'a', 'a', 'b', 'b', 'b', 'b', 'a', 'a', 'a'],
   ['a', 'a', 'a', 'b', 'b', 'b', 'b', 'a', 'a', 'a'],
   [' ', ' ', ' ', 'b', 'b', 'b', 'b', ' ', ' ', ' '],
   [' ', ' ', ' ', ' ', 'c', 'c', ' ', ' ', ' ', ' '],
   [' ', ' ', ' ', ' ', 'd', 'd', ' ', ' ', ' ', ' '],
   [' ', ' ', ' ', ' ', 'd', 'd', ' ', ' ', ' ', ' ']]

/-- `CONJUNCTION_R`, sim7_mol_library.hpp:327-339. -/
def conjunctionR : Gate 10 10 MolType := MolType.gate
  [[' ', ' ', ' ', ' ', '0', '0', ' ', ' ', ' ', ' '],
   [' ', ' ', ' ', ' ', 'a', 'a', ' ', ' ', ' ', ' '],
   [' ', ' ', ' ', ' ', 'a', 'a', ' ', ' ', ' ', ' '],
   [' ', ' ', ' ', 'b', 'b', 'b', 'b', ' ', ' ', ' '],
   ['a', 'a', 'a', 'b', 'b', 'b', 'b', 'c', 'd', 'd'],
   ['a', 'a', 'a', 'b', 'b', 'b', 'b', 'c', 'd', 'd'],
   [' ', ' ', ' ', 'b', 'b', 'b', 'b', ' ', ' ', ' '],
   [' ', ' ', ' ', ' ', 'a', 'a', ' ', ' ', ' ', ' '],
   [' ', ' ', ' ', ' ', 'a', 'a', ' ', ' ', ' ', ' '],
   [' ', ' ', ' ', ' ', 'a', 'a', ' ', ' ', ' ', ' ']]

/-- `DISJUNCTION`, sim7_mol_library.hpp:341-353. -/
def disjunction : Gate 10 10 MolType := MolType.gate
  [[' ', ' ', ' ', ' ', '1', '1', ' ', ' ', ' ', ' '],
   [' ', ' ', ' ', ' ', 'a', 'a', ' ', ' ', ' ', ' '],
   [' ', ' ', ' ', ' ', 'a', 'a', ' ', ' ', ' ', ' '],
   [' ', ' ', ' ', 'b', 'b', 'b', 'b', ' ', ' ', ' '],
   ['d', 'd', 'c', 'b', 'b', 'b', 'b', 'a', 'a', 'a'],
   ['d', 'd', 'c', 'b', 'b', 'b', 'b', 'a', 'a', 'a'],
   [' ', ' ', ' ', 'b', 'b', 'b', 'b', ' ', ' ', ' '],
   [' ', ' ', ' ', ' ', 'a', 'a', ' ', ' ', ' ', ' '],
   [' ', ' ', ' ', ' ', 'a', 'a', ' ', ' ', ' ', ' '],
   [' ', ' ', ' ', ' ', 'a', 'a', ' ', ' ', ' ', ' ']]

/-- `DISJUNCTION_D`, sim7_mol_library.hpp:355-367. -/
def disjunctionD : Gate 10 10 MolType := MolType.gate
  [[' ', ' ', ' ', ' ', '1', '1', ' ', ' ', ' ', ' '],
   [' ', ' ', ' ', ' ', 'a', 'a', ' ', ' ', ' ', ' '],
   [' ', ' ', ' ', ' ', 'a', 'a', ' ', ' ', ' ', ' '],
   [' ', ' ', ' ', 'b', 'b', 'b', 'b', ' ', ' ', ' '],
   ['a', 'a', 'a', 'b', 'b', 'b', 'b', 'a', 'a', 'a'],
   ['a', 'a', 'a', 'b', 'b', 'b', 'b', 'a', 'a', 'a'],
   [' ', ' ', ' ', 'b', 'b', 'b', 'b', ' ', ' ', ' '],
   [' ', ' ', ' ', ' ', 'c', 'c', ' ', ' ', ' ', ' '],
   [' ', ' ', ' ', ' ', 'd', 'd', ' ', ' ', ' ', ' '],
   [' ', ' ', ' ', ' ', 'd', 'd', ' ', ' ', ' ', ' ']]

/-- `DISJUNCTION_R`, sim7_mol_library.hpp:369-381. -/
def disjunctionR : Gate 10 10 MolType := MolType.gate
  [[' ', ' ', ' ', ' ', '1', '1', ' ', ' ', ' ', ' '],
   [' ', ' ', ' ', ' ', 'a', 'a', ' ', ' ', ' ', ' '],
   [' ', ' ', ' ', ' ', 'a', 'a', ' ', ' ', ' ', ' '],
   [' ', ' ', ' ', 'b', 'b', 'b', 'b', ' ', ' ', ' '],
   ['a', 'a', 'a', 'b', 'b', 'b', 'b', 'c', 'd', 'd'],
   ['a', 'a', 'a', 'b', 'b', 'b', 'b', 'c', 'd', 'd'],
   [' ', ' ', ' ', 'b', 'b', 'b', 'b', ' ', ' ', ' '],
   [' ', ' ', ' ', ' ', 'a', 'a', ' ', ' ', ' ', ' '],
   [' ', ' ', ' ', ' ', 'a', 'a', ' ', ' ', ' ', ' '],
   [' ', ' ', ' ', ' ', 'a', 'a', ' ', ' ', ' ', ' ']]

/-- `MAJORITY`, sim7_mol_library.hpp:383-395. -/
def majority : Gate 10 10 MolType := MolType.gate
  [[' ', ' ', ' ', ' ', 'a', 'a', ' ', ' ', ' ', ' '],
   [' ', ' ', ' ', ' ', 'a', 'a', ' ', ' ', ' ', ' '],
   [' ', ' ', ' ', ' ', 'a', 'a', ' ', ' ', ' ', ' '],
   [' ', ' ', ' ', 'b', 'b', 'b', 'b', ' ', ' ', ' '],
   ['a', 'a', 'a', 'b', 'b', 'b', 'b', 'a', 'a', 'a'],
   ['a', 'a', 'a', 'b', 'b', 'b', 'b', 'a', 'a', 'a'],
   [' ', ' ', ' ', 'b', 'b', 'b', 'b', ' ', ' ', ' '],
   [' ', ' ', ' ', ' ', 'c', 'c', ' ', ' ', ' ', ' '],
   [' ', ' ', ' ', ' ', 'd', 'd', ' ', ' ', ' ', ' '],
   [' ', ' ', ' ', ' ', 'd', 'd', ' ', ' ', ' ', ' ']]

/-- `FAN_OUT_1_2`, sim7_mol_library.hpp:397-409. -/
def fanOut12 : Gate 10 10 MolType := MolType.gate
  [[' ', ' ', ' ', ' ', ' ', ' ', ' ', ' ', ' ', ' '],
   [' ', ' ', ' ', ' ', ' ', ' ', ' ', ' ', ' ', ' '],
   [' ', ' ', ' ', ' ', ' ', ' ', ' ', ' ', ' ', ' '],
   [' ', ' ', ' ', ' ', ' ', ' ', ' ', ' ', ' ', ' '],
   ['a', 'a', 'b', 'b', 'c', 'c', 'd', 'd', 'd', 'd'],
   ['a', 'a', 'b', 'b', 'c', 'c', 'd', 'd', 'd', 'd'],
   [' ', ' ', ' ', ' ', 'd', 'd', ' ', ' ', ' ', ' '],
   [' ', ' ', ' ', ' ', 'd', 'd', ' ', ' ', ' ', ' '],
   [' ', ' ', ' ', ' ', 'd', 'd', ' ', ' ', ' ', ' '],
   [' ', ' ', ' ', ' ', 'd', 'd', ' ', ' ', ' ', ' ']]

/-- `FAN_OUT_1_2_R`, sim7_mol_library.hpp:411-423. -/
def fanOut12R : Gate 10 10 MolType := MolType.gate
  [[' ', ' ', ' ', ' ', ' ', ' ', ' ', ' ', ' ', ' '],
   [' ', ' ', ' ', ' ', ' ', ' ', ' ', ' ', ' ', ' '],
   [' ', ' ', ' ', ' ', ' ', ' ', ' ', ' ', ' ', ' '],
   [' ', ' ', ' ', ' ', ' ', ' ', ' ', ' ', ' ', ' '],
   ['d', 'd', 'd', 'd', 'c', 'c', 'b', 'b', 'a', 'a'],
   ['d', 'd', 'd', 'd', 'c', 'c', 'b', 'b', 'a', 'a'],
   [' ', ' ', ' ', ' ', 'd', 'd', ' ', ' ', ' ', ' '],
   [' ', ' ', ' ', ' ', 'd', 'd', ' ', ' ', ' ', ' '],
   [' ', ' ', ' ', ' ', 'd', 'd', ' ', ' ', ' ', ' '],
   [' ', ' ', ' ', ' ', 'd', 'd', ' ', ' ', ' ', ' ']]

/-- `FAN_OUT_1_2_D`, sim7_mol_library.hpp:425-437. -/
def fanOut12D : Gate 10 10 MolType := MolType.gate
  [[' ', ' ', ' ', ' ', ' ', ' ', ' ', ' ', ' ', ' '],
   [' ', ' ', ' ', ' ', ' ', ' ', ' ', ' ', ' ', ' '],
   [' ', ' ', ' ', ' ', ' ', ' ', ' ', ' ', ' ', ' '],
   [' ', ' ', ' ', ' ', ' ', ' ', ' ', ' ', ' ', ' '],
   ['d', 'd', 'd', 'd', 'c', 'c', 'd', 'd', 'd', 'd'],
   ['d', 'd', 'd', 'd', 'c', 'c', 'd', 'd', 'd', 'd'],
   [' ', ' ', ' ', ' ', 'b', 'b', ' ', ' ', ' ', ' '],
   [' ', ' ', ' ', ' ', 'b', 'b', ' ', ' ', ' ', ' '],
   [' ', ' ', ' ', ' ', 'a', 'a', ' ', ' ', ' ', ' '],
   [' ', ' ', ' ', ' ', 'a', 'a', ' ', ' ', ' ', ' ']]

/-- `FAN_OUT_1_3`, sim7_mol_library.hpp:439-451. -/
def fanOut13 : Gate 10 10 MolType := MolType.gate
  [[' ', ' ', ' ', ' ', 'a', 'a', ' ', ' ', ' ', ' '],
   [' ', ' ', ' ', ' ', 'a', 'a', ' ', ' ', ' ', ' '],
   [' ', ' ', ' ', ' ', 'a', 'a', ' ', ' ', ' ', ' '],
   [' ', ' ', ' ', 'b', 'b', 'b', 'b', ' ', ' ', ' '],
   ['d', 'd', 'c', 'b', 'b', 'b', 'b', 'c', 'd', 'd'],
   ['d', 'd', 'c', 'b', 'b', 'b', 'b', 'c', 'd', 'd'],
   [' ', ' ', ' ', 'b', 'b', 'b', 'b', ' ', ' ', ' '],
   [' ', ' ', ' ', ' ', 'c', 'c', ' ', ' ', ' ', ' '],
   [' ', ' ', ' ', ' ', 'd', 'd', ' ', ' ', ' ', ' '],
   [' ', ' ', ' ', ' ', 'd', 'd', ' ', ' ', ' ', ' ']]

/-- `PRIMARY_INPUT_PORT`, sim7_mol_library.hpp:457-469. -/
def primaryInputPort : Gate 10 10 MolType := MolType.gate
  [[' ', ' ', ' ', ' ', 'i', 'i', ' ', ' ', ' ', ' '],
   [' ', ' ', ' ', ' ', ' ', ' ', ' ', ' ', ' ', ' '],
   [' ', ' ', ' ', ' ', ' ', ' ', ' ', ' ', ' ', ' '],
   [' ', ' ', ' ', ' ', ' ', ' ', ' ', ' ', ' ', ' '],
   [' ', ' ', ' ', ' ', ' ', ' ', ' ', ' ', ' ', ' '],
   [' ', ' ', ' ', ' ', ' ', ' ', ' ', ' ', ' ', ' '],
   [' ', ' ', ' ', ' ', ' ', ' ', ' ', ' ', ' ', ' '],
   [' ', ' ', ' ', ' ', ' ', ' ', ' ', ' ', ' ', ' '],
   [' ', ' ', ' ', ' ', ' ', ' ', ' ', ' ', ' ', ' '],
   [' ', ' ', ' ', ' ', ' ', ' ', ' ', ' ', ' ', ' ']]

/-- `PRIMARY_OUTPUT_PORT`, sim7_mol_library.hpp:471-483. -/
def primaryOutputPort : Gate 10 10 MolType := MolType.gate
  [[' ', ' ', ' ', ' ', 'o', 'o', ' ', ' ', ' ', ' '],
   [' ', ' ', ' ', ' ', ' ', ' ', ' ', ' ', ' ', ' '],
   [' ', ' ', ' ', ' ', ' ', ' ', ' ', ' ', ' ', ' '],
   [' ', ' ', ' ', ' ', ' ', ' ', ' ', ' ', ' ', ' '],
   [' ', ' ', ' ', ' ', ' ', ' ', ' ', ' ', ' ', ' '],
   [' ', ' ', ' ', ' ', ' ', ' ', ' ', ' ', ' ', ' '],
   [' ', ' ', ' ', ' ', ' ', ' ', ' ', ' ', ' ', ' '],
   [' ', ' ', ' ', ' ', ' ', ' ', ' ', ' ', ' ', ' '],
   [' ', ' ', ' ', ' ', ' ', ' ', ' ', ' ', ' ', ' '],
   [' ', ' ', ' ', ' ', ' ', ' ', ' ', ' ', ' ', ' ']]

/-- `CENTER_WIRE`, sim7_mol_library.hpp:485-497. -/
def centerWire : Gate 10 10 MolType := MolType.gate
  [[' ', ' ', ' ', ' ', 'a', 'a', ' ', ' ', ' ', ' '],
   [' ', ' ', ' ', ' ', 'a', 'a', ' ', ' ', ' ', ' '],
   [' ', ' ', ' ', ' ', 'a', 'a', ' ', ' ', ' ', ' '],
   [' ', ' ', ' ', ' ', 'b', 'b', ' ', ' ', ' ', ' '],
   [' ', ' ', ' ', ' ', 'b', 'b', ' ', ' ', ' ', ' '],
   [' ', ' ', ' ', ' ', 'c', 'c', ' ', ' ', ' ', ' '],
   [' ', ' ', ' ', ' ', 'c', 'c', ' ', ' ', ' ', ' '],
   [' ', ' ', ' ', ' ', 'd', 'd', ' ', ' ', ' ', ' '],
   [' ', ' ', ' ', ' ', 'd', 'd', ' ', ' ', ' ', ' '],
   [' ', ' ', ' ', ' ', 'd', 'd', ' ', ' ', ' ', ' ']]

/-- `CENTER_BENT_WIRE`, sim7_mol_library.hpp:499-511. -/
def centerBentWire : Gate 10 10 MolType := MolType.gate
  [[' ', ' ', ' ', ' ', 'a', 'a', ' ', ' ', ' ', ' '],
   [' ', ' ', ' ', ' ', 'a', 'a', ' ', ' ', ' ', ' '],
   [' ', ' ', ' ', ' ', 'a', 'a', ' ', ' ', ' ', ' '],
   [' ', ' ', ' ', ' ', 'b', 'b', ' ', ' ', ' ', ' '],
   [' ', ' ', ' ', ' ', 'b', 'b', 'c', 'c', 'd', 'd'],
   [' ', ' ', ' ', ' ', 'b', 'b', 'c', 'c', 'd', 'd'],
   [' ', ' ', ' ', ' ', ' ', ' ', ' ', ' ', ' ', ' '],
   [' ', ' ', ' ', ' ', ' ', ' ', ' ', ' ', ' ', ' '],
   [' ', ' ', ' ', ' ', ' ', ' ', ' ', ' ', ' ', ' '],
   [' ', ' ', ' ', ' ', ' ', ' ', ' ', ' ', ' ', ' ']]

/-- `CENTER_BENT_WIRE_R`, sim7_mol_library.hpp:513-525. -/
def centerBentWireR : Gate 10 10 MolType := MolType.gate
  [[' ', ' ', ' ', ' ', 'd', 'd', ' ', ' ', ' ', ' '],
   [' ', ' ', ' ', ' ', 'd', 'd', ' ', ' ', ' ', ' '],
   [' ', ' ', ' ', ' ', 'c', 'c', ' ', ' ', ' ', ' '],
   [' ', ' ', ' ', ' ', 'c', 'c', ' ', ' ', ' ', ' '],
   [' ', ' ', ' ', ' ', 'b', 'b', 'b', 'a', 'a', 'a'],
   [' ', ' ', ' ', ' ', 'b', 'b', 'b', 'a', 'a', 'a'],
   [' ', ' ', ' ', ' ', ' ', ' ', ' ', ' ', ' ', ' '],
   [' ', ' ', ' ', ' ', ' ', ' ', ' ', ' ', ' ', ' '],
   [' ', ' ', ' ', ' ', ' ', ' ', ' ', ' ', ' ', ' '],
   [' ', ' ', ' ', ' ', ' ', ' ', ' ', ' ', ' ', ' ']]

/-- `WIRE_MAP`, sim7_mol_library.hpp:533-557. -/
def wireMap : List (Entry 10 MolType) :=
  [⟨[], [(4,0)], .id, primaryInputPort⟩,
   ⟨[], [(9,4)], .r90, primaryInputPort⟩,
   ⟨[], [(5,9)], .r180, primaryInputPort⟩,
   ⟨[], [(0,5)], .r270, primaryInputPort⟩,
   ⟨[(4,0)], [], .id, primaryOutputPort⟩,
   ⟨[(9,4)], [], .r90, primaryOutputPort⟩,
   ⟨[(5,9)], [], .r180, primaryOutputPort⟩,
   ⟨[(0,5)], [], .r270, primaryOutputPort⟩,
   ⟨[(4,0)], [(5,9)], .id, centerWire⟩,
   ⟨[(5,9)], [(4,0)], .r180, centerWire⟩,
   ⟨[(9,4)], [(0,5)], .r90, centerWire⟩,
   ⟨[(0,5)], [(9,4)], .r270, centerWire⟩,
   ⟨[(4,0)], [(9,4)], .id, centerBentWire⟩,
   ⟨[(9,4)], [(4,0)], .id, centerBentWireR⟩,
   ⟨[(9,4)], [(5,9)], .r90, centerBentWire⟩,
   ⟨[(5,9)], [(9,4)], .r90, centerBentWireR⟩,
   ⟨[(0,5)], [(5,9)], .r180, centerBentWireR⟩,
   ⟨[(5,9)], [(0,5)], .r180, centerBentWire⟩,
   ⟨[(4,0)], [(0,5)], .r270, centerBentWireR⟩,
   ⟨[(0,5)], [(4,0)], .r270, centerBentWire⟩]

/-- `INVERTER_MAP`, sim7_mol_library.hpp:561-585. -/
def inverterMap : List (Entry 10 MolType) :=
  [⟨[(4,0)], [(5,9)], .id, straightInverter⟩,
   ⟨[(9,4)], [(0,5)], .r90, straightInverter⟩,
   ⟨[(5,9)], [(4,0)], .r180, straightInverter⟩,
   ⟨[(0,5)], [(9,4)], .r270, straightInverter⟩,
   ⟨[(4,0)], [], .id, straightInverter⟩,
   ⟨[(9,4)], [], .r90, straightInverter⟩,
   ⟨[(5,9)], [], .r180, straightInverter⟩,
   ⟨[(0,5)], [], .r270, straightInverter⟩,
   ⟨[], [(5,9)], .id, straightInverter⟩,
   ⟨[], [(0,5)], .r90, straightInverter⟩,
   ⟨[], [(4,0)], .r180, straightInverter⟩,
   ⟨[], [(9,4)], .r270, straightInverter⟩,
   ⟨[(4,0)], [(9,4)], .id, bentInverter⟩,
   ⟨[(9,4)], [(4,0)], .id, bentInverterR⟩,
   ⟨[(9,4)], [(5,9)], .r90, bentInverter⟩,
   ⟨[(5,9)], [(9,4)], .r90, bentInverterR⟩,
   ⟨[(0,5)], [(5,9)], .r180, bentInverterR⟩,
   ⟨[(5,9)], [(0,5)], .r180, bentInverter⟩,
   ⟨[(4,0)], [(0,5)], .r270, bentInverterR⟩,
   ⟨[(0,5)], [(4,0)], .r270, bentInverter⟩]

/-- `CONJUNCTION_MAP`, sim7_mol_library.hpp:589-608. -/
def conjunctionMap : List (Entry 10 MolType) :=
  [⟨[(5,9), (9,4)], [(0,5)], .id, conjunction⟩,
   ⟨[(0,5), (9,4)], [(5,9)], .id, conjunctionD⟩,
   ⟨[(0,5), (5,9)], [(9,4)], .id, conjunctionR⟩,
   ⟨[(0,5), (5,9)], [(4,0)], .r90, conjunction⟩,
   ⟨[(5,9), (4,0)], [(0,5)], .r90, conjunctionD⟩,
   ⟨[(0,5), (4,0)], [(5,9)], .r90, conjunctionR⟩,
   ⟨[(0,5), (4,0)], [(9,4)], .r180, conjunction⟩,
   ⟨[(0,5), (9,4)], [(4,0)], .r180, conjunctionD⟩,
   ⟨[(9,4), (4,0)], [(0,5)], .r180, conjunctionR⟩,
   ⟨[(9,4), (4,0)], [(5,9)], .r270, conjunction⟩,
   ⟨[(5,9), (4,0)], [(9,4)], .r270, conjunctionD⟩,
   ⟨[(5,9), (9,4)], [(4,0)], .r270, conjunctionR⟩]

/-- `DISJUNCTION_MAP`, sim7_mol_library.hpp:613-632. -/
def disjunctionMap : List (Entry 10 MolType) :=
  [⟨[(5,9), (9,4)], [(0,5)], .id, disjunction⟩,
   ⟨[(0,5), (9,4)], [(5,9)], .id, disjunctionD⟩,
   ⟨[(0,5), (5,9)], [(9,4)], .id, disjunctionR⟩,
   ⟨[(0,5), (5,9)], [(4,0)], .r90, disjunction⟩,
   ⟨[(5,9), (4,0)], [(0,5)], .r90, disjunctionD⟩,
   ⟨[(0,5), (4,0)], [(5,9)], .r90, disjunctionR⟩,
   ⟨[(0,5), (4,0)], [(9,4)], .r180, disjunction⟩,
   ⟨[(0,5), (9,4)], [(4,0)], .r180, disjunctionD⟩,
   ⟨[(9,4), (4,0)], [(0,5)], .r180, disjunctionR⟩,
   ⟨[(9,4), (4,0)], [(5,9)], .r270, disjunction⟩,
   ⟨[(5,9), (4,0)], [(9,4)], .r270, disjunctionD⟩,
   ⟨[(5,9), (9,4)], [(4,0)], .r270, disjunctionR⟩]

/-- `FANOUT_MAP`, sim7_mol_library.hpp:636-657. -/
def fanoutMap : List (Entry 10 MolType) :=
  [⟨[(0,5)], [(5,9), (9,4)], .id, fanOut12⟩,
   ⟨[(9,4)], [(0,5), (5,9)], .id, fanOut12R⟩,
   ⟨[(5,9)], [(0,5), (9,4)], .id, fanOut12D⟩,
   ⟨[(4,0)], [(0,5), (5,9)], .r90, fanOut12⟩,
   ⟨[(5,9)], [(0,5), (4,0)], .r90, fanOut12R⟩,
   ⟨[(0,5)], [(5,9), (4,0)], .r90, fanOut12D⟩,
   ⟨[(9,4)], [(0,5), (4,0)], .r180, fanOut12⟩,
   ⟨[(0,5)], [(9,4), (4,0)], .r180, fanOut12R⟩,
   ⟨[(4,0)], [(0,5), (9,4)], .r180, fanOut12D⟩,
   ⟨[(5,9)], [(9,4), (4,0)], .r270, fanOut12⟩,
   ⟨[(4,0)], [(5,9), (9,4)], .r270, fanOut12R⟩,
   ⟨[(9,4)], [(5,9), (4,0)], .r270, fanOut12D⟩]

/-- `MAJORITY_MAP`, sim7_mol_library.hpp:662-669. -/
def majorityMap : List (Entry 10 MolType) :=
  [⟨[(0,5), (4,0), (9,4)], [(5,9)], .id, majority⟩,
   ⟨[(4,0), (9,4), (5,9)], [(0,5)], .r90, majority⟩,
   ⟨[(9,4), (5,9), (0,5)], [(4,0)], .r180, majority⟩,
   ⟨[(5,9), (0,5), (4,0)], [(9,4)], .r270, majority⟩]

/-- The connector ports of a tile, sim7_mol_library.hpp:143-177. -/
def port : Side → Port
  | .north => (4, 0)
  | .east => (9, 4)
  | .south => (5, 9)
  | .west => (0, 5)

/-- `determine_port_routing`, sim7_mol_library.hpp:138-207. -/
def ports (t : Tile) : PortList :=
  let inp := portSet ((sides.filter t.inc).map port)
  let out := portSet ((sides.filter t.out).map port)
  if t.fn ≠ 2 ∧ t.fn ≠ 3 then
    ⟨if t.faninSize = 0 then emplace (0, 5) inp else inp, if t.fanoutSize = 0 then emplace (9, 4) out else out⟩
  else ⟨inp, out⟩

/-- `set_up_1_to_3_fanout`, sim7_mol_library.hpp:219-249. -/
def fanout13 (p : PortList) : Option (Outcome 10 MolType) :=
  if p.inp.length ≠ 1 ∨ p.out.length ≠ 3 then some .unsupportedOrientation
  else if (4, 0) ∈ p.inp then (Rot.id.apply .empty fanOut13).map .gate
  else if (9, 4) ∈ p.inp then (Rot.r90.apply .empty fanOut13).map .gate
  else if (5, 9) ∈ p.inp then (Rot.r180.apply .empty fanOut13).map .gate
  else if (0, 5) ∈ p.inp then (Rot.r270.apply .empty fanOut13).map .gate
  else some .unsupportedOrientation

/-- `set_up_gate`, sim7_mol_library.hpp:52-122. `t` respects the clocking and `u` does not. -/
def setUp (t u : Tile) : Option (Outcome 10 MolType) :=
  if t.isFanout then
    if u.fanoutSize = 3 then fanout13 (ports u) else lookup .empty fanoutMap (ports u)
  else if t.fn = 2 then lookup .empty wireMap (ports t)
  else if t.fn = 3 then lookup .empty inverterMap (ports t)
  else if t.fn = 4 then lookup .empty conjunctionMap (ports t)
  else if t.fn = 6 then lookup .empty disjunctionMap (ports t)
  else if t.fn = 14 then lookup .empty majorityMap (ports t)
  else some .unsupportedType

end Sim7
end Verif.Library
