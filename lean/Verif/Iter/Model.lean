import Mathlib.Data.Nat.Choose.Basic

/-!
# Model of `algorithms/iter/*.hpp`, `utils/math_utils.hpp`, `utils/combination_utils.hpp`
-/
namespace Verif.Iter

/-! ## gray_code_iterator.hpp -/

/-- The three members of `gray_code_iterator`, gray_code_iterator.hpp:303-311. -/
structure Gray where
  start : BitVec 64
  iter : BitVec 64
  code : BitVec 64

/-- `binary_to_gray`, gray_code_iterator.hpp:321-324 (on a value). -/
def grayOf (i : BitVec 64) : BitVec 64 := i ^^^ (i >>> 1)

/-- Constructor, gray_code_iterator.hpp:30-36. -/
def Gray.mk' (start : BitVec 64) : Gray := ⟨start, start, grayOf start⟩

/-- The mutating operators. -/
inductive GrayOp
  | inc | dec | add (m : Int) | sub (m : Int) | assign (m : BitVec 64)

/-- gray_code_iterator.hpp:51-57 (++), 176-183 (--), 149-155 (+=), 205-212 (-=), 219-224 (=).
The `int` operand is converted to `uint64_t`. -/
def Gray.step (g : Gray) : GrayOp → Gray
  | .inc => let i := g.iter + 1; ⟨g.start, i, grayOf i⟩
  | .dec => let i := g.iter - 1; ⟨g.start, i, grayOf i⟩
  | .add m => let i := g.iter + BitVec.ofInt 64 m; ⟨g.start, i, grayOf i⟩
  | .sub m => let i := g.iter - BitVec.ofInt 64 m; ⟨g.start, i, grayOf i⟩
  | .assign m => ⟨g.start, m, grayOf m⟩

/-- A history of calls of the operators, gray_code_iterator.hpp. -/
def Gray.run (g : Gray) (ops : List GrayOp) : Gray := ops.foldl Gray.step g

/-- `operator[]`, gray_code_iterator.hpp:231-237. -/
def Gray.at (g : Gray) (index : BitVec 64) : BitVec 64 :=
  let r := g.start + index
  r ^^^ (r >>> 1)

/-- `operator==(const gray_code_iterator&)`, gray_code_iterator.hpp:64-67. -/
def Gray.eq (a b : Gray) : Bool := a.code == b.code
/-- `operator<(const gray_code_iterator&)`, gray_code_iterator.hpp:86-89. -/
def Gray.lt (a b : Gray) : Bool := a.code.ult b.code
/-- `operator-(const gray_code_iterator&)`, gray_code_iterator.hpp:110-113. -/
def Gray.diff (a b : Gray) : BitVec 64 := a.iter - b.iter
/-- `operator<(uint64_t)`, gray_code_iterator.hpp:264-267. -/
def Gray.ltNum (a : Gray) (m : BitVec 64) : Bool := a.iter.ult m

/-! ## aspect_ratio_iterator.hpp -/

/-- Body of the loop in `factorize` for one `i`, aspect_ratio_iterator.hpp:147-157. -/
def factorsAt (num i : Nat) : List (Nat × Nat) :=
  if num % i = 0 then
    let x := i - 1
    let y := num / i - 1
    if x ≠ y then [(x, y), (y, x)] else [(x, y)]
  else []

/-- The loop of `factorize` from `i` on, aspect_ratio_iterator.hpp:145-158. `i <= std::sqrt(num)` is
read as `i * i ≤ num` (exact for `num < 2^52`). -/
def factorizeFrom (num i : Nat) : List (Nat × Nat) :=
  if i = 0 ∨ num < i * i then [] else factorsAt num i ++ factorizeFrom num (i + 1)
termination_by num + 1 - i
decreasing_by
  rename_i h
  have : i ≤ i * i := Nat.le_mul_self i
  omega

/-- `factorize`, aspect_ratio_iterator.hpp:141-162. -/
def factorize (num : Nat) : List (Nat × Nat) := factorizeFrom num 1

/-- Iterator state: `num`, `factors`, and the index behind `it`. -/
structure ARIt where
  num : Nat
  factors : List (Nat × Nat)
  idx : Nat
deriving DecidableEq, Repr

/-- `next`, aspect_ratio_iterator.hpp:166-173, with the do-while loop bounded by `fuel`. -/
def arNext : Nat → Nat → ARIt
  | 0, num => ⟨num, factorize num, 0⟩
  | fuel + 1, num =>
    let n := num + 1
    if (factorize n).isEmpty then arNext fuel n else ⟨n, factorize n, 0⟩

/-- Constructor, aspect_ratio_iterator.hpp:37-40. -/
def ARIt.mk' (n : Nat) : ARIt := arNext 2 (if n ≠ 0 then n - 1 else 0)

/-- `operator++`, aspect_ratio_iterator.hpp:49-60. -/
def ARIt.inc (s : ARIt) : ARIt :=
  if s.idx + 1 = s.factors.length then arNext 2 s.num else { s with idx := s.idx + 1 }

/-- `operator*`, aspect_ratio_iterator.hpp:78-81. -/
def ARIt.deref (s : ARIt) : Option (Nat × Nat) := s.factors[s.idx]?

/-- Order of zero-based two-dimensional extents as in `offset::ucoord_t::operator<` with equal `z`:
row-major, i.e. by `y`, then `x` (coordinates.hpp:189-206). -/
def extLe (a b : Nat × Nat) : Bool := decide (a.2 < b.2) || (a.2 == b.2 && decide (a.1 ≤ b.1))

/-- `operator<=(const aspect_ratio_iterator&)`, aspect_ratio_iterator.hpp:118-121. -/
def ARIt.le (a b : ARIt) : Bool :=
  decide (a.num ≤ b.num) || (a.num == b.num &&
    match a.deref, b.deref with
    | some p, some q => extLe p q
    | _, _ => false)

/-! ## math_utils.hpp -/

/-- The loop of `binomial_coefficient` in 64-bit arithmetic, math_utils.hpp:73-76: `j` iterations remain,
the next value of the counter is `i`. -/
def binomLoop (n : Nat) : Nat → Nat → Nat → Nat
  | 0, _, result => result
  | j + 1, i, result => binomLoop n j (i + 1) (result * (n + 1 - i) % 2^64 / i)

/-- `binomial_coefficient`, math_utils.hpp:59-79, for `n < 2^63` (so that `2 * k` and `n + 1` do not wrap). -/
def binomialCoefficient (n k : Nat) : Nat :=
  if k > n then 0
  else
    let k := if 2 * k > n then n - k else k
    binomLoop n k 1 1

/-- One round of the outer loop of `cartesian_combinations`, math_utils.hpp:99-114. -/
def expand {α : Type} (all : List (List α)) (dimension : List α) : List (List α) :=
  all.flatMap (fun product => dimension.map (fun element => product ++ [element]))

/-- `cartesian_combinations`, math_utils.hpp:93-117. -/
def cartesianCombinations {α : Type} (sets : List (List α)) : List (List α) := sets.foldl expand [[]]

/-- `combinations::for_each_combination` over a sorted range, an external library (not modelled, taken
by its specification): all `k`-element subsequences in lexicographic order. -/
def kSubsequences {α : Type} : Nat → List α → List (List α)
  | 0, _ => [[]]
  | _ + 1, [] => []
  | k + 1, a :: l => (kSubsequences k l).map (a :: ·) ++ kSubsequences (k + 1) l

/-- combination_utils.hpp:29-68. -/
def allCombinations (k n : Nat) : List (List Nat) :=
  if k > n then [] else if k = 0 then [] else kSubsequences k (List.range n)

/-! ## bdl_input_iterator.hpp -/

/-- `sidb_technology::cell_type` restricted to what the iterator touches. -/
inductive CellType | empty | normal | input | output
deriving DecidableEq, Repr

/-- `bdl_pair`, detect_bdl_pairs.hpp:28-43, without the type of its SiDBs. -/
structure BdlPair (C : Type) where
  upper : C
  lower : C

/-- `input_bdl_configuration`, bdl_input_iterator.hpp. -/
inductive InputConfig | perturberDistanceEncoded | perturberAbsenceEncoded
deriving DecidableEq, Repr

/-- The iterator's fixed data and its two variable members (layout, index). The wires enter only
through `upper_input_closer_to_wire_end`. -/
structure BdlIt (C : Type) where
  pairs : List (BdlPair C)
  closer : List Bool
  config : InputConfig
  layout : C → CellType
  index : BitVec 64

variable {C : Type} [DecidableEq C]

/-- `assign_cell_type` as observed through `get_cell_type`, cell_level_layout.hpp:163-199. -/
def assignCell (l : C → CellType) (c : C) (t : CellType) : C → CellType := fun x => if x = c then t else l x

/-- Body of the loop for input `i`, bdl_input_iterator.hpp:485-524. `n` is `num_inputs`. -/
def setInput (n : Nat) (config : InputConfig) (index : BitVec 64) (i : Nat) (p : BdlPair C) (closer : Bool)
    (l : C → CellType) : C → CellType :=
  if index &&& ((1 : BitVec 64) <<< (n - 1 - i)) ≠ 0 then
    if closer then assignCell (assignCell l p.lower .empty) p.upper .input
    else assignCell (assignCell l p.lower .input) p.upper .empty
  else if config = .perturberDistanceEncoded then
    if closer then assignCell (assignCell l p.lower .input) p.upper .empty
    else assignCell (assignCell l p.lower .empty) p.upper .input
  else assignCell (assignCell l p.upper .empty) p.lower .empty

/-- The loop of `set_all_inputs`, bdl_input_iterator.hpp:483-525: the last `k` inputs have not been
visited yet; inputs are visited from the highest index down. -/
def setInputsBelow (s : BdlIt C) : Nat → (C → CellType) → (C → CellType)
  | 0, l => l
  | k + 1, l =>
    match s.pairs[k]?, s.closer[k]? with
    | some p, some b => setInputsBelow s k (setInput s.pairs.length s.config s.index k p b l)
    | _, _ => setInputsBelow s k l

/-- `set_all_inputs`, bdl_input_iterator.hpp:479-526. -/
def setAllInputs (s : BdlIt C) : BdlIt C := { s with layout := setInputsBelow s s.pairs.length s.layout }

/-- bdl_input_iterator.hpp:137-144, 208-215, 180-187, 237-244, 251-258. -/
def BdlIt.step (s : BdlIt C) : GrayOp → BdlIt C
  | .inc => setAllInputs { s with index := s.index + 1 }
  | .dec => setAllInputs { s with index := s.index - 1 }
  | .add m => setAllInputs { s with index := s.index + BitVec.ofInt 64 m }
  | .sub m => setAllInputs { s with index := s.index - BitVec.ofInt 64 m }
  | .assign m => setAllInputs { s with index := m }

/-- Constructor, bdl_input_iterator.hpp:84-98: the pairs and the flags are what detection returned. -/
def BdlIt.mk' (pairs : List (BdlPair C)) (closer : List Bool) (config : InputConfig) (l : C → CellType) : BdlIt C :=
  setAllInputs ⟨pairs, closer, config, l, 0⟩

/-- A history of calls of the operators, bdl_input_iterator.hpp. -/
def BdlIt.run (s : BdlIt C) (ops : List GrayOp) : BdlIt C := ops.foldl BdlIt.step s

/-- The loop of `collect_bdl_input_pattern_layouts`, bdl_input_iterator.hpp:548-553, `k` rounds. -/
def collectFrom (s : BdlIt C) : Nat → List (C → CellType)
  | 0 => []
  | k + 1 => s.layout :: collectFrom (s.step .inc) k

/-- `collect_bdl_input_pattern_layouts`, bdl_input_iterator.hpp:538-556 (fewer than 64 inputs). -/
def collectLayouts (s : BdlIt C) : List (C → CellType) := collectFrom (s.step (.assign 0)) (2 ^ s.pairs.length)

end Verif.Iter
