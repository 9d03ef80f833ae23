import Verif.Library.Tile

/-!
# The QCA ONE library

Model of `include/fiction/technology/qca_one_library.hpp`. The tables are copied from the code.
-/
namespace Verif.Library

open Verif.Cells

/-- `cell_list_to_gate`, fcn_gate_library.hpp:181-185, for `qca_technology::cell_type`, cell_technologies.hpp:21-47. -/
def _root_.Verif.Cells.QcaType.gate {N : Nat} (rows : List (List Char)) : Gate N N QcaType := fun i j =>
  match (rows.getD i []).getD j ' ' with
  | 'x' => .normal
  | 'i' => .input
  | 'o' => .output
  | '0' => .const0
  | '1' => .const1
  | _ => .empty

namespace QcaOne

/-- `STRAIGHT_INVERTER`, qca_one_library.hpp:212-219. -/
def straightInverter : Gate 5 5 QcaType := QcaType.gate
  [[' ', ' ', 'x', ' ', ' '],
   [' ', 'x', 'x', 'x', ' '],
   [' ', 'x', ' ', 'x', ' '],
   [' ', ' ', 'x', ' ', ' '],
   [' ', ' ', 'x', ' ', ' ']]

/-- `BENT_INVERTER`, qca_one_library.hpp:221-228. -/
def bentInverter : Gate 5 5 QcaType := QcaType.gate
  [[' ', ' ', 'x', ' ', ' '],
   [' ', ' ', 'x', ' ', ' '],
   [' ', ' ', ' ', 'x', 'x'],
   [' ', ' ', ' ', ' ', ' '],
   [' ', ' ', ' ', ' ', ' ']]

/-- `CONJUNCTION`, qca_one_library.hpp:230-237. -/
def conjunction : Gate 5 5 QcaType := QcaType.gate
  [[' ', ' ', '0', ' ', ' '],
   [' ', ' ', 'x', ' ', ' '],
   ['x', 'x', 'x', 'x', 'x'],
   [' ', ' ', 'x', ' ', ' '],
   [' ', ' ', 'x', ' ', ' ']]

/-- `DISJUNCTION`, qca_one_library.hpp:239-246. -/
def disjunction : Gate 5 5 QcaType := QcaType.gate
  [[' ', ' ', '1', ' ', ' '],
   [' ', ' ', 'x', ' ', ' '],
   ['x', 'x', 'x', 'x', 'x'],
   [' ', ' ', 'x', ' ', ' '],
   [' ', ' ', 'x', ' ', ' ']]

/-- `MAJORITY`, qca_one_library.hpp:248-255. -/
def majority : Gate 5 5 QcaType := QcaType.gate
  [[' ', ' ', 'x', ' ', ' '],
   [' ', ' ', 'x', ' ', ' '],
   ['x', 'x', 'x', 'x', 'x'],
   [' ', ' ', 'x', ' ', ' '],
   [' ', ' ', 'x', ' ', ' ']]

/-- `FAN_OUT_1_2`, qca_one_library.hpp:257-264. -/
def fanOut12 : Gate 5 5 QcaType := QcaType.gate
  [[' ', ' ', ' ', ' ', ' '],
   [' ', ' ', ' ', ' ', ' '],
   ['x', 'x', 'x', 'x', 'x'],
   [' ', ' ', 'x', ' ', ' '],
   [' ', ' ', 'x', ' ', ' ']]

/-- `FAN_OUT_1_3`, qca_one_library.hpp:266-273. -/
def fanOut13 : Gate 5 5 QcaType := QcaType.gate
  [[' ', ' ', 'x', ' ', ' '],
   [' ', ' ', 'x', ' ', ' '],
   ['x', 'x', 'x', 'x', 'x'],
   [' ', ' ', 'x', ' ', ' '],
   [' ', ' ', 'x', ' ', ' ']]

/-- `PRIMARY_INPUT_PORT`, qca_one_library.hpp:279-286. -/
def primaryInputPort : Gate 5 5 QcaType := QcaType.gate
  [[' ', ' ', 'x', ' ', ' '],
   [' ', ' ', 'x', ' ', ' '],
   [' ', ' ', 'i', ' ', ' '],
   [' ', ' ', ' ', ' ', ' '],
   [' ', ' ', ' ', ' ', ' ']]

/-- `PRIMARY_OUTPUT_PORT`, qca_one_library.hpp:288-295. -/
def primaryOutputPort : Gate 5 5 QcaType := QcaType.gate
  [[' ', ' ', 'x', ' ', ' '],
   [' ', ' ', 'x', ' ', ' '],
   [' ', ' ', 'o', ' ', ' '],
   [' ', ' ', ' ', ' ', ' '],
   [' ', ' ', ' ', ' ', ' ']]

/-- `CENTER_WIRE`, qca_one_library.hpp:297-304. -/
def centerWire : Gate 5 5 QcaType := QcaType.gate
  [[' ', ' ', 'x', ' ', ' '],
   [' ', ' ', 'x', ' ', ' '],
   [' ', ' ', 'x', ' ', ' '],
   [' ', ' ', 'x', ' ', ' '],
   [' ', ' ', 'x', ' ', ' ']]

/-- `INNER_SIDE_WIRE`, qca_one_library.hpp:306-313. -/
def innerSideWire : Gate 5 5 QcaType := QcaType.gate
  [[' ', ' ', ' ', 'x', ' '],
   [' ', ' ', ' ', 'x', ' '],
   [' ', ' ', ' ', 'x', ' '],
   [' ', ' ', ' ', 'x', ' '],
   [' ', ' ', ' ', 'x', ' ']]

/-- `OUTER_SIDE_WIRE`, qca_one_library.hpp:315-322. -/
def outerSideWire : Gate 5 5 QcaType := QcaType.gate
  [[' ', ' ', ' ', ' ', 'x'],
   [' ', ' ', ' ', ' ', 'x'],
   [' ', ' ', ' ', ' ', 'x'],
   [' ', ' ', ' ', ' ', 'x'],
   [' ', ' ', ' ', ' ', 'x']]

/-- `CENTER_BENT_WIRE`, qca_one_library.hpp:324-331. -/
def centerBentWire : Gate 5 5 QcaType := QcaType.gate
  [[' ', ' ', 'x', ' ', ' '],
   [' ', ' ', 'x', ' ', ' '],
   [' ', ' ', 'x', 'x', 'x'],
   [' ', ' ', ' ', ' ', ' '],
   [' ', ' ', ' ', ' ', ' ']]

/-- `INNER_CENTER_TO_INNER_CENTER_BENT_WIRE`, qca_one_library.hpp:333-338. -/
def innerCenterToInnerCenterBentWire : Gate 5 5 QcaType := QcaType.gate
  [[' ', ' ', ' ', 'x', ' '],
   [' ', ' ', ' ', 'x', 'x'],
   [' ', ' ', ' ', ' ', ' '],
   [' ', ' ', ' ', ' ', ' '],
   [' ', ' ', ' ', ' ', ' ']]

/-- `INNER_CENTER_TO_CENTER_BENT_WIRE`, qca_one_library.hpp:340-345. -/
def innerCenterToCenterBentWire : Gate 5 5 QcaType := QcaType.gate
  [[' ', ' ', ' ', 'x', ' '],
   [' ', ' ', ' ', 'x', ' '],
   [' ', ' ', ' ', 'x', 'x'],
   [' ', ' ', ' ', ' ', ' '],
   [' ', ' ', ' ', ' ', ' ']]

/-- `INNER_CENTER_TO_OUTER_CENTER_BENT_WIRE`, qca_one_library.hpp:347-352. -/
def innerCenterToOuterCenterBentWire : Gate 5 5 QcaType := QcaType.gate
  [[' ', ' ', ' ', 'x', ' '],
   [' ', ' ', ' ', 'x', ' '],
   [' ', ' ', ' ', 'x', ' '],
   [' ', ' ', ' ', 'x', 'x'],
   [' ', ' ', ' ', ' ', ' ']]

/-- `INNER_CENTER_TO_OUTER_SIDE_BENT_WIRE`, qca_one_library.hpp:354-359. -/
def innerCenterToOuterSideBentWire : Gate 5 5 QcaType := QcaType.gate
  [[' ', ' ', ' ', 'x', ' '],
   [' ', ' ', ' ', 'x', ' '],
   [' ', ' ', ' ', 'x', ' '],
   [' ', ' ', ' ', 'x', ' '],
   [' ', ' ', ' ', 'x', 'x']]

/-- `CENTER_TO_INNER_CENTER_BENT_WIRE`, qca_one_library.hpp:361-366. -/
def centerToInnerCenterBentWire : Gate 5 5 QcaType := QcaType.gate
  [[' ', ' ', 'x', ' ', ' '],
   [' ', ' ', 'x', 'x', 'x'],
   [' ', ' ', ' ', ' ', ' '],
   [' ', ' ', ' ', ' ', ' '],
   [' ', ' ', ' ', ' ', ' ']]

/-- `OUTER_CENTER_TO_CENTER_BENT_WIRE`, qca_one_library.hpp:368-373. -/
def outerCenterToCenterBentWire : Gate 5 5 QcaType := QcaType.gate
  [[' ', 'x', ' ', ' ', ' '],
   [' ', 'x', ' ', ' ', ' '],
   [' ', 'x', 'x', 'x', 'x'],
   [' ', ' ', ' ', ' ', ' '],
   [' ', ' ', ' ', ' ', ' ']]

/-- `OUTER_CENTER_TO_OUTER_CENTER_BENT_WIRE`, qca_one_library.hpp:375-380. -/
def outerCenterToOuterCenterBentWire : Gate 5 5 QcaType := QcaType.gate
  [[' ', 'x', ' ', ' ', ' '],
   [' ', 'x', ' ', ' ', ' '],
   [' ', 'x', ' ', ' ', ' '],
   [' ', 'x', 'x', 'x', 'x'],
   [' ', ' ', ' ', ' ', ' ']]

/-- `OUTER_SIDE_TO_OUTER_SIDE_BENT_WIRE`, qca_one_library.hpp:382-387. -/
def outerSideToOuterSideBentWire : Gate 5 5 QcaType := QcaType.gate
  [['x', ' ', ' ', ' ', ' '],
   ['x', ' ', ' ', ' ', ' '],
   ['x', ' ', ' ', ' ', ' '],
   ['x', ' ', ' ', ' ', ' '],
   ['x', 'x', 'x', 'x', 'x']]

/-- `WIRE_MAP`, qca_one_library.hpp:395-439. -/
def wireMap : List (Entry 5 QcaType) :=
  [⟨[], [(2,0)], .id, primaryInputPort⟩,
   ⟨[], [(4,2)], .r90, primaryInputPort⟩,
   ⟨[], [(2,4)], .r180, primaryInputPort⟩,
   ⟨[], [(0,2)], .r270, primaryInputPort⟩,
   ⟨[(2,0)], [], .id, primaryOutputPort⟩,
   ⟨[(4,2)], [], .r90, primaryOutputPort⟩,
   ⟨[(2,4)], [], .r180, primaryOutputPort⟩,
   ⟨[(0,2)], [], .r270, primaryOutputPort⟩,
   ⟨[(2,0)], [(2,4)], .id, centerWire⟩,
   ⟨[(2,4)], [(2,0)], .id, centerWire⟩,
   ⟨[(0,2)], [(4,2)], .r90, centerWire⟩,
   ⟨[(4,2)], [(0,2)], .r90, centerWire⟩,
   ⟨[(3,0)], [(3,4)], .id, innerSideWire⟩,
   ⟨[(3,4)], [(3,0)], .id, innerSideWire⟩,
   ⟨[(0,3)], [(4,3)], .r90, innerSideWire⟩,
   ⟨[(4,3)], [(0,3)], .r90, innerSideWire⟩,
   ⟨[(1,0)], [(1,4)], .r180, innerSideWire⟩,
   ⟨[(1,4)], [(1,0)], .r180, innerSideWire⟩,
   ⟨[(0,1)], [(4,1)], .r270, innerSideWire⟩,
   ⟨[(4,1)], [(0,1)], .r270, innerSideWire⟩,
   ⟨[(4,0)], [(4,4)], .id, outerSideWire⟩,
   ⟨[(4,4)], [(4,0)], .id, outerSideWire⟩,
   ⟨[(0,4)], [(4,4)], .r90, outerSideWire⟩,
   ⟨[(4,4)], [(0,4)], .r90, outerSideWire⟩,
   ⟨[(0,0)], [(0,4)], .r180, outerSideWire⟩,
   ⟨[(0,4)], [(0,0)], .r180, outerSideWire⟩,
   ⟨[(0,0)], [(4,0)], .r270, outerSideWire⟩,
   ⟨[(4,0)], [(0,0)], .r270, outerSideWire⟩,
   ⟨[(2,0)], [(4,2)], .id, centerBentWire⟩,
   ⟨[(4,2)], [(2,0)], .id, centerBentWire⟩,
   ⟨[(4,2)], [(2,4)], .r90, centerBentWire⟩,
   ⟨[(2,4)], [(4,2)], .r90, centerBentWire⟩,
   ⟨[(0,2)], [(2,4)], .r180, centerBentWire⟩,
   ⟨[(2,4)], [(0,2)], .r180, centerBentWire⟩,
   ⟨[(2,0)], [(0,2)], .r270, centerBentWire⟩,
   ⟨[(0,2)], [(2,0)], .r270, centerBentWire⟩]

/-- `INVERTER_MAP`, qca_one_library.hpp:443-467. -/
def inverterMap : List (Entry 5 QcaType) :=
  [⟨[(2,0)], [(2,4)], .id, straightInverter⟩,
   ⟨[(4,2)], [(0,2)], .r90, straightInverter⟩,
   ⟨[(2,4)], [(2,0)], .r180, straightInverter⟩,
   ⟨[(0,2)], [(4,2)], .r270, straightInverter⟩,
   ⟨[(2,0)], [], .id, straightInverter⟩,
   ⟨[(4,2)], [], .r90, straightInverter⟩,
   ⟨[(2,4)], [], .r180, straightInverter⟩,
   ⟨[(0,2)], [], .r270, straightInverter⟩,
   ⟨[], [(2,4)], .id, straightInverter⟩,
   ⟨[], [(0,2)], .r90, straightInverter⟩,
   ⟨[], [(2,0)], .r180, straightInverter⟩,
   ⟨[], [(4,2)], .r270, straightInverter⟩,
   ⟨[(2,0)], [(4,2)], .id, bentInverter⟩,
   ⟨[(4,2)], [(2,0)], .id, bentInverter⟩,
   ⟨[(4,2)], [(2,4)], .r90, bentInverter⟩,
   ⟨[(2,4)], [(4,2)], .r90, bentInverter⟩,
   ⟨[(0,2)], [(2,4)], .r180, bentInverter⟩,
   ⟨[(2,4)], [(0,2)], .r180, bentInverter⟩,
   ⟨[(2,0)], [(0,2)], .r270, bentInverter⟩,
   ⟨[(0,2)], [(2,0)], .r270, bentInverter⟩]

/-- `CONJUNCTION_MAP`, qca_one_library.hpp:471-486. -/
def conjunctionMap : List (Entry 5 QcaType) :=
  [⟨[(0,2), (2,4)], [(4,2)], .id, conjunction⟩,
   ⟨[(0,2), (4,2)], [(2,4)], .id, conjunction⟩,
   ⟨[(2,4), (4,2)], [(0,2)], .id, conjunction⟩,
   ⟨[(0,2), (2,4)], [(2,0)], .r90, conjunction⟩,
   ⟨[(0,2), (2,0)], [(2,4)], .r90, conjunction⟩,
   ⟨[(2,4), (2,0)], [(0,2)], .r90, conjunction⟩,
   ⟨[(0,2), (4,2)], [(2,0)], .r180, conjunction⟩,
   ⟨[(0,2), (2,0)], [(4,2)], .r180, conjunction⟩,
   ⟨[(4,2), (2,0)], [(0,2)], .r180, conjunction⟩,
   ⟨[(2,4), (4,2)], [(2,0)], .r270, conjunction⟩,
   ⟨[(2,4), (2,0)], [(4,2)], .r270, conjunction⟩,
   ⟨[(4,2), (2,0)], [(2,4)], .r270, conjunction⟩]

/-- `DISJUNCTION_MAP`, qca_one_library.hpp:490-505. -/
def disjunctionMap : List (Entry 5 QcaType) :=
  [⟨[(0,2), (2,4)], [(4,2)], .id, disjunction⟩,
   ⟨[(0,2), (4,2)], [(2,4)], .id, disjunction⟩,
   ⟨[(2,4), (4,2)], [(0,2)], .id, disjunction⟩,
   ⟨[(0,2), (2,4)], [(2,0)], .r90, disjunction⟩,
   ⟨[(0,2), (2,0)], [(2,4)], .r90, disjunction⟩,
   ⟨[(2,4), (2,0)], [(0,2)], .r90, disjunction⟩,
   ⟨[(0,2), (4,2)], [(2,0)], .r180, disjunction⟩,
   ⟨[(0,2), (2,0)], [(4,2)], .r180, disjunction⟩,
   ⟨[(4,2), (2,0)], [(0,2)], .r180, disjunction⟩,
   ⟨[(2,4), (4,2)], [(2,0)], .r270, disjunction⟩,
   ⟨[(2,4), (2,0)], [(4,2)], .r270, disjunction⟩,
   ⟨[(4,2), (2,0)], [(2,4)], .r270, disjunction⟩]

/-- `FANOUT_MAP`, qca_one_library.hpp:509-524. -/
def fanoutMap : List (Entry 5 QcaType) :=
  [⟨[(4,2)], [(0,2), (2,4)], .id, fanOut12⟩,
   ⟨[(2,4)], [(0,2), (4,2)], .id, fanOut12⟩,
   ⟨[(0,2)], [(2,4), (4,2)], .id, fanOut12⟩,
   ⟨[(2,0)], [(0,2), (2,4)], .r90, fanOut12⟩,
   ⟨[(2,4)], [(0,2), (2,0)], .r90, fanOut12⟩,
   ⟨[(0,2)], [(2,4), (2,0)], .r90, fanOut12⟩,
   ⟨[(2,0)], [(0,2), (4,2)], .r180, fanOut12⟩,
   ⟨[(4,2)], [(0,2), (2,0)], .r180, fanOut12⟩,
   ⟨[(0,2)], [(4,2), (2,0)], .r180, fanOut12⟩,
   ⟨[(2,0)], [(2,4), (4,2)], .r270, fanOut12⟩,
   ⟨[(4,2)], [(2,4), (2,0)], .r270, fanOut12⟩,
   ⟨[(2,4)], [(4,2), (2,0)], .r270, fanOut12⟩]

/-- The connector ports of a tile, qca_one_library.hpp:154-187. -/
def port : Side → Port
  | .north => (2, 0)
  | .east => (4, 2)
  | .south => (2, 4)
  | .west => (0, 2)

/-- `determine_port_routing`, qca_one_library.hpp:148-204. -/
def ports (t : Tile) : PortList :=
  let inp := portSet ((sides.filter t.inc).map port)
  let out := portSet ((sides.filter t.out).map port)
  if t.fn ≠ 2 ∧ t.fn ≠ 3 then
    ⟨if t.faninSize = 0 then emplace (0, 2) inp else inp, if t.fanoutSize = 0 then emplace (4, 2) out else out⟩
  else ⟨inp, out⟩

/-- `set_up_gate`, qca_one_library.hpp:45-111. -/
def setUp (t : Tile) : Option (Outcome 5 QcaType) :=
  let p := ports t
  if t.isFanout ∧ t.fanoutSize = 2 then lookup .empty fanoutMap p
  else if t.isFanout ∧ t.fanoutSize = 3 then some (.gate fanOut13)
  else if t.fn = 2 then lookup .empty wireMap p
  else if t.fn = 3 then lookup .empty inverterMap p
  else if t.fn = 4 then lookup .empty conjunctionMap p
  else if t.fn = 6 then lookup .empty disjunctionMap p
  else if t.fn = 14 then some (.gate majority)
  else some .unsupportedType

end QcaOne
end Verif.Library
