/-!
# Model of `utils/truth_table_utils.hpp` and of the node functions of `gate_level_layout.hpp` and
`technology_network.hpp`

A truth table over `n` variables (`kitty::dynamic_truth_table`, `n < 6`) is its bit vector as a natural number below
`2^(2^n)`; the words beyond the first are not modelled, so neither are tables with more than six variables.
-/
namespace Verif.TruthTables

/-- `kitty::dynamic_truth_table` (external library), see above. -/
structure TT where
  vars : Nat
  word : Nat
deriving DecidableEq, Repr

/-- `kitty::create_from_words` on a one-word table: the superfluous bits are masked off (external library). -/
def fromWord (n lit : Nat) : TT := ⟨n, lit % 2 ^ 2 ^ n⟩

/-- `kitty::create_from_binary_string` (external library): the leftmost character is the most significant bit. -/
def fromBinary (n : Nat) (s : List Bool) : TT := ⟨n, s.foldl (fun a b => 2 * a + b.toNat) 0⟩

/-- `kitty::get_bit`. -/
def TT.get (t : TT) (i : Nat) : Bool := t.word.testBit i

/-! ## Constructors, truth_table_utils.hpp -/

/-- :27-35 -/ def createId := fromWord 1 0x2
/-- :41-49 -/ def createNot := fromWord 1 0x1
/-- :55-63 -/ def createAnd := fromWord 2 0x8
/-- :69-77 -/ def createOr := fromWord 2 0xe
/-- :83-91 -/ def createNand := fromWord 2 0x7
/-- :97-105 -/ def createNor := fromWord 2 0x1
/-- :111-119 -/ def createXor := fromWord 2 0x6
/-- :125-133 -/ def createXnor := fromWord 2 0x9
/-- :139-147 -/ def createLt := fromWord 2 0x2
/-- :153-161 -/ def createGt := fromWord 2 0x4
/-- :167-175 -/ def createLe := fromWord 2 0x11
/-- :181-189 -/ def createGe := fromWord 2 0x13
/-- :195-203 -/ def createAnd3 := fromWord 3 0x80
/-- :209-217 -/ def createXorAnd := fromWord 3 0x28
/-- :223-231 -/ def createOrAnd := fromWord 3 0xa8
/-- :237-245 -/ def createOnehot := fromWord 3 0x16
/-- :251-259 -/ def createMaj := fromWord 3 0xe8
/-- :265-273 -/ def createGamble := fromWord 3 0x81
/-- :279-287 -/ def createDot := fromWord 3 0x52
/-- :293-301 -/ def createIte := fromWord 3 0xd8
/-- :307-315 -/ def createAndXor := fromWord 3 0x6a
/-- :321-329 -/ def createXor3 := fromWord 3 0x96
/-- :339-351 -/ def createDoubleWire : List TT :=
  [fromBinary 2 [true, true, false, false], fromBinary 2 [true, false, true, false]]
/-- :361-373 -/ def createCrossingWire : List TT :=
  [fromBinary 2 [true, false, true, false], fromBinary 2 [true, true, false, false]]
/-- :382-391 -/ def createFanOut : List TT := [fromBinary 1 [true, false], fromBinary 1 [true, false]]
/-- :401-413 -/ def createHalfAdder : List TT :=
  [fromBinary 2 [false, true, true, false], fromBinary 2 [true, false, false, false]]

/-- `evaluate_output`, truth_table_utils.hpp:421-432: output `i` becomes bit `i` of a `std::bitset<64>`. The loop over
`i` from `i` on, collecting in `bits`. -/
def evaluateOutputFrom (tts : List TT) (index : Nat) (i bits : Nat) : Nat :=
  match tts with
  | [] => bits
  | t :: ts => evaluateOutputFrom ts index (i + 1) (if t.get index then bits ||| 2 ^ i else bits)

/-- `evaluate_output`, truth_table_utils.hpp:421-432. -/
def evaluateOutput (tts : List TT) (index : Nat) : Nat := evaluateOutputFrom tts index 0 0

/-! ## Node functions -/

/-- Complement of a table. -/
def TT.compl (t : TT) : TT := ⟨t.vars, 2 ^ 2 ^ t.vars - 1 - t.word⟩

/-- `mockturtle::truth_table_cache` (external library, modelled after its documented behaviour): tables are stored
normalised, i.e. with bit 0 clear; a literal is twice the position plus one for the complement. -/
abbrev Cache := List TT

/-- Position of a table, appending it if it is new. -/
def findOrAppend : Cache → TT → Cache × Nat
  | [], t => ([t], 0)
  | u :: us, t => if u = t then (u :: us, 0) else let r := findOrAppend us t; (u :: r.1, r.2 + 1)

/-- `mockturtle::truth_table_cache::insert` (external library). -/
def Cache.insert (c : Cache) (t : TT) : Cache × Nat :=
  if t.get 0 then let r := findOrAppend c t.compl; (r.1, 2 * r.2 + 1)
  else let r := findOrAppend c t; (r.1, 2 * r.2)

/-- `mockturtle::truth_table_cache::operator[]` (external library). -/
def Cache.lookup (c : Cache) (lit : Nat) : Option TT :=
  (c[lit / 2]?).map fun t => if lit % 2 = 1 then t.compl else t

/-- `initialize_truth_table_cache`, gate_level_layout.hpp:1724-1747. -/
def layoutTables : List TT :=
  [fromWord 0 0, fromWord 1 0x1, fromWord 2 0x8, fromWord 2 0xe, fromWord 2 0x2, fromWord 2 0xb, fromWord 2 0x6,
   fromWord 3 0xe8]

/-- The cache after `initialize_truth_table_cache`, gate_level_layout.hpp:1724-1747. -/
def layoutCache : Cache := layoutTables.foldl (fun c t => (c.insert t).1) []

/-- The tables a technology network starts with: those of `mockturtle::klut_network` (external: zero, not, and, or, lt,
le, xor, maj, ite, xor3) followed by `add_additional_functions`, technology_network.hpp:406-460. -/
def networkTables : List TT :=
  layoutTables ++ [fromWord 3 0xd8, fromWord 3 0x96] ++
  [fromWord 3 0x52, fromWord 3 0x80, fromWord 3 0x28, fromWord 3 0xa8, fromWord 3 0x16, fromWord 3 0x81, fromWord 3 0x6a]

/-- The cache of a technology network, technology_network.hpp:406-460. -/
def networkCache : Cache := networkTables.foldl (fun c t => (c.insert t).1) []

/-- The gates of the two interfaces and the literal each `create_*` passes on: gate_level_layout.hpp:454-517,
technology_network.hpp:87-172; the last six are the literals of the `is_*` predicates, technology_network.hpp:346-374. -/
inductive Gate
  | buf | not | and | nand | or | nor | lt | ge | gt | le | xor | xnor | maj
  | ite | xor3 | dot | and3 | xorAnd | orAnd | onehot | gamble | andXor
deriving DecidableEq, Repr

/-- The literals of the gates, gate_level_layout.hpp:1724-1747, technology_network.hpp:346-374, 406-460. -/
def Gate.literal : Gate → Nat
  | .buf => 2 | .not => 3 | .and => 4 | .nand => 5 | .or => 6 | .nor => 7 | .lt => 8 | .ge => 9 | .gt => 10 | .le => 11
  | .xor => 12 | .xnor => 13 | .maj => 14 | .ite => 16 | .xor3 => 18 | .dot => 20 | .and3 => 22 | .xorAnd => 24
  | .orAnd => 26 | .onehot => 28 | .gamble => 31 | .andXor => 32

/-- `compute` on Boolean values, gate_level_layout.hpp:1276-1286: the first value is the most significant index bit.
(The function names a member `cache` that the layout's storage does not have, so it cannot be instantiated as is; it is
read as if it named `fn_cache`.) -/
def computeBool (g : TT) (vals : List Bool) : Bool := g.get (vals.foldl (fun i b => 2 * i ^^^ b.toNat) 0)

/-- The pattern of input `i`, gate_level_layout.hpp:1303-1307: child `j` contributes index bit `j`. -/
def pattern (tts : List TT) (i : Nat) (j : Nat) : Nat :=
  match tts with
  | [] => 0
  | t :: ts => ((t.get i).toNat <<< j) ||| pattern ts i (j + 1)

/-- `compute` on truth tables, gate_level_layout.hpp:1288-1316. `bits` counts the positions set so far. -/
def computeLoop (g : TT) (tts : List TT) : Nat → Nat → Nat
  | 0, word => word
  | i + 1, word =>
    let w := computeLoop g tts i word
    if g.get (pattern tts i 0) then w ||| 2 ^ i else w

/-- `compute` on truth tables, gate_level_layout.hpp:1288-1316. -/
def computeTT (g : TT) (tts : List TT) : Option TT :=
  match tts with
  | [] => none
  | t :: _ => some ⟨t.vars, computeLoop g tts (2 ^ t.vars) 0⟩

end Verif.TruthTables
