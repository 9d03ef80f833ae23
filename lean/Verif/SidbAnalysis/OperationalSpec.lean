import Verif.SidbAnalysis.Operational

/-!
# What it means that a gate is operational
-/
namespace Verif.SidbAnalysis.Operational

open Verif.Sidb Verif.SidbAnalysis.Bdl

variable {α : Type}

/-- In a pair of a wire that leads down or right, a bit is one if the upper dot is neutral and the lower one negative,
and zero the other way round; in a wire that leads up or left it is reversed. -/
def Encodes (c : Dist α) (p : Pair α) (d : Dir) (bit : Bool) : Prop :=
  if (d = .north ∨ d = .west) = (bit = true) then c p.upper = .neg ∧ c p.lower = .neu
  else c p.upper = .neu ∧ c p.lower = .neg

/-- Each output pair encodes the bit of its truth table. -/
def OutputsCorrect (g : Gate α) (c : Dist α) (i : Nat) : Prop :=
  ∀ (k : Nat) p w t, g.outPairs[k]? = some p → g.outWires[k]? = some w → g.tts[k]? = some t → Encodes c p w.dir (t i)

/-- Each pair of an input wire, other than the input itself, encodes the bit of this input, and each pair of an output
wire the bit of this output. The last input wire is the least significant bit of the input pattern. -/
def NoKinks (g : Gate α) (c : Dist α) (i : Nat) : Prop :=
  (∀ (k : Nat) w, g.inWires[k]? = some w → ∀ p ∈ w.pairs, p.type ≠ .input →
    Encodes c p w.dir (i.testBit (g.inWires.length - 1 - k))) ∧
  (∀ (k : Nat) w t, g.outWires[k]? = some w → g.tts[k]? = some t → ∀ p ∈ w.pairs, Encodes c p w.dir (t i))

/-- The layout computes the function under the input pattern `i`: no positive charges can occur in a simulation with two
charge states, there is a charge distribution, and all ground states encode the expected outputs, without kinks where
these are to be rejected. -/
def Works (g : Gate α) (prm : Params) (I : Instance α) (i : Nat) : Prop :=
  ¬ (prm.base = 2 ∧ I.positive = true) ∧ I.found = true ∧
    ∀ c ∈ I.ground, OutputsCorrect g c i ∧ (prm.rejectKinks = true → NoKinks g c i)

/-- There is one truth table and one output wire for each output pair, and one truth table for each output wire. -/
structure Gate.Ok (g : Gate α) : Prop where
  pairs_tts : g.outPairs.length ≤ g.tts.length
  pairs_wires : g.outPairs.length ≤ g.outWires.length
  wires_tts : g.outWires.length ≤ g.tts.length

/-- The dots the filter assigns by the wires. -/
def Gate.OnWire (g : Gate α) (a : α) : Prop :=
  (∃ w ∈ g.inWires, ∃ p ∈ w.pairs, p.type ≠ .input ∧ (a = p.upper ∨ a = p.lower)) ∨
  (∃ w ∈ g.outWires, ∃ p ∈ w.pairs, a = p.upper ∨ a = p.lower)

/-- The conditions under which the filter is right about one input pattern: the energies and the validity are those of
the dots of the layout, one of the ground states has the least energy of all valid charge distributions, has no
positive charges in the canvas and negative charges at all dots outside of the canvas and of the wires, and the state
of the first dot of the canvas is determined by the others. -/
structure FilterConditions (g : Gate α) (I : Instance α) (cells : List α) : Prop where
  local_valid : ∀ c c' : Dist α, (∀ a ∈ cells, c a = c' a) → I.valid c = I.valid c'
  local_energy : ∀ c c' : Dist α, (∀ a ∈ cells, c a = c' a) → I.energy c = I.energy c'
  exact : I.found = true → ∃ c ∈ I.ground, I.valid c = true ∧ (∀ c', I.valid c' = true → I.energy c ≤ I.energy c') ∧
    (∀ a ∈ cells, a ∈ g.canvas → c a ≠ .pos) ∧
    (∀ a ∈ cells, a ∉ g.canvas → ¬ g.OnWire a → c a = .neg) ∧
    (∀ d, g.canvas.head? = some d → ∀ c' : Dist α, (∀ a ∈ cells, a ≠ d → c' a = c a) →
      ∀ a ∈ cells, I.dependent c' a = c a)

/-- Wires as the detection returns them: wires without direction consist of an input or output pair, output wires
contain no input pairs. -/
structure Gate.WiresOk (g : Gate α) : Prop where
  directed : ∀ w ∈ g.inWires, ∀ p ∈ w.pairs, p.type ≠ .input → w.dir ≠ .none
  noInput : ∀ w ∈ g.outWires, ∀ p ∈ w.pairs, p.type ≠ .input
  tables : g.tts.length = g.outWires.length

end Verif.SidbAnalysis.Operational
