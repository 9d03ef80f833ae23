import Verif.GateLevel.Lemmas
import Verif.Layouts.CartesianProps
import Verif.PhysicalDesign.LayoutFn

/-!
# Specification of hexagonalization
-/
namespace Verif.PhysicalDesign.Hexa

open Verif.Layouts Verif.Clocking Verif.GateLevel

/-- Occupied tiles. -/
def Occ (s : State) (t : Coord) : Prop := t.d = false ∧ ∃ n, s.tileNode t = some n

/-- The layouts on a Cartesian grid of the dimension `m` clocked by 2DDWave that are mapped faithfully. -/
structure Hexable (m : Dim) (nc : NumClks) (s : State) : Prop where
  /-- The layout is a state of the interface (maintained by every history of operations). -/
  wf : WF s
  /-- The result fits the 31 bits of coordinates. -/
  small : m.X + m.Y < 2^31 - 1
  /-- Everything is within the bounds, and nothing is above an empty tile. -/
  bounds : ∀ t n, t.d = false → s.tileNode t = some n → InBounds m t
  ground : ∀ t n, t.d = false → s.tileNode t = some n → s.tileNode ⟨t.x, t.y, 0, false⟩ ≠ none
  /-- The inputs are distinct placed buffers. -/
  inputs : s.inputs.Nodup
  placed : ∀ n ∈ s.inputs, ∃ t, t.d = false ∧ s.tileNode t = some n
  pi : ∀ n ∈ s.inputs, (s.nodes n).fn = 2
  /-- Everything else has one or two fanins, none of which is constant. -/
  fanin : ∀ t n, t.d = false → s.tileNode t = some n → n ∉ s.inputs →
    ((s.fanins m .cart (twoddwaveClocking .cart nc) true n).length = 1 ∨ (s.fanins m .cart (twoddwaveClocking .cart nc) true n).length = 2) ∧
    ∀ c ∈ s.fanins m .cart (twoddwaveClocking .cart nc) true n, c.d = false
  /-- Nodes with one fanin are buffers and inverters. -/
  unary : ∀ t n, t.d = false → s.tileNode t = some n → n ∉ s.inputs →
    (s.fanins m .cart (twoddwaveClocking .cart nc) true n).length = 1 → (s.nodes n).fn = 2 ∨ (s.nodes n).fn = 3
  /-- The outputs are distinct placed buffers with one fanin, and nothing reads them. -/
  outputs : s.outputs.Nodup
  po : ∀ p ∈ s.outputs, p.d = false ∧ ∃ n, s.tileNode p = some n ∧ n ∉ s.inputs ∧ (s.nodes n).fn = 2 ∧
    (s.fanins m .cart (twoddwaveClocking .cart nc) true n).length = 1
  sink : ∀ t n, t.d = false → s.tileNode t = some n → n ∉ s.inputs → ∀ c ∈ s.fanins m .cart (twoddwaveClocking .cart nc) true n, c ∉ s.outputs

/-- The layout `s'` on an even-row hexagonal grid of the dimension `m'`, clocked row by row, is the layout `s` with every tile `t` moved to `g t`. -/
structure Moved (m : Dim) (nc : NumClks) (s : State) (m' : Dim) (s' : State) (g : Coord → Coord) : Prop where
  /-- No two tiles are moved to the same tile, and nothing else is occupied. -/
  inj : ∀ t t', Occ s t → Occ s t' → g t = g t' → t = t'
  onto : ∀ k, Occ s' k ↔ ∃ t, Occ s t ∧ k = g t
  /-- Diagonals become rows; layers are kept; everything is in bounds. -/
  row : ∀ t, Occ s t → (g t).y = t.x + t.y ∧ (g t).z = t.z
  inBounds : ∀ t, Occ s t → InBounds m' (g t)
  /-- Functions and connections are kept, and the connections follow the clocking of the hexagonal layout. -/
  fn : ∀ t, Occ s t → (s'.nodes (s'.getNode (g t))).fn = (s.nodes (s.getNode t)).fn
  fanins : ∀ t, Occ s t → s.getNode t ∉ s.inputs → s'.fanins m' (.hex .evenRow) (rowClocking (.hex .evenRow) .four) true (s'.getNode (g t)) =
    (s.fanins m .cart (twoddwaveClocking .cart nc) true (s.getNode t)).map g
  /-- Inputs and outputs are kept in their order. -/
  inputs : s'.inputs.map s'.getTile = s.inputs.map (fun n => g (s.getTile n))
  outputs : s'.outputs = s.outputs.map g

end Verif.PhysicalDesign.Hexa
