import Verif.TruthTables.Model
import Mathlib.Data.Nat.Bitwise

/-! # C29, C30: truth tables and gate functions -/
namespace Verif.TruthTables

/-- Value of a table when variable `j` takes the `j`-th listed value (variable 0 is the least significant index bit,
the convention of the truth-table library). -/
def value (t : TT) : List Bool → Bool
  | vs => t.get (vs.foldr (fun b i => b.toNat + 2 * i) 0)

/-- The same with the first listed value as the most significant index bit. -/
def valueMsb (t : TT) (vs : List Bool) : Bool := value t vs.reverse

/-- **C29** (constructors whose name is symmetric or follows the library's convention). -/
theorem C29_constructors_partial (a b c : Bool) :
    value createId [a] = a ∧ value createNot [a] = !a ∧
    value createAnd [a, b] = (a && b) ∧ value createOr [a, b] = (a || b) ∧
    value createNand [a, b] = !(a && b) ∧ value createNor [a, b] = !(a || b) ∧
    value createXor [a, b] = (a ^^ b) ∧ value createXnor [a, b] = !(a ^^ b) ∧
    value createAnd3 [a, b, c] = (a && b && c) ∧ value createXorAnd [a, b, c] = (a && (b ^^ c)) ∧
    value createOrAnd [a, b, c] = (a && (b || c)) ∧
    value createOnehot [a, b, c] = decide (a.toNat + b.toNat + c.toNat = 1) ∧
    value createMaj [a, b, c] = decide (2 ≤ a.toNat + b.toNat + c.toNat) ∧
    value createGamble [a, b, c] = (a == b && b == c) ∧
    value createDot [a, b, c] = (a ^^ (c || (a && b))) ∧
    value createIte [a, b, c] = (if a then b else c) ∧
    value createAndXor [a, b, c] = (a ^^ (b && c)) ∧ value createXor3 [a, b, c] = (a ^^ b ^^ c) := by
  revert a b c; decide

/-- **C29** (order relations): `lt` and `gt` are the relations named only if the *first* operand is the most
significant index bit. -/
theorem C29_lt_gt_msb (a b : Bool) :
    valueMsb createLt [a, b] = decide (a < b) ∧ valueMsb createGt [a, b] = decide (b < a) ∧
    value createLt [a, b] = decide (b < a) ∧ value createGt [a, b] = decide (a < b) := by
  revert a b; decide

/-- **C29** (finding): `le` and `ge` are not the relations named, in neither variable order, and not the complements of
`gt` and `lt`: `create_le_tt` builds NOR and `create_ge_tt` the negation of one variable. -/
theorem C29_le_ge_wrong :
    (¬ ∀ a b, value createLe [a, b] = decide (a ≤ b)) ∧ (¬ ∀ a b, valueMsb createLe [a, b] = decide (a ≤ b)) ∧
    (¬ ∀ a b, value createGe [a, b] = decide (b ≤ a)) ∧ (¬ ∀ a b, valueMsb createGe [a, b] = decide (b ≤ a)) ∧
    createLe ≠ createGt.compl ∧ createGe ≠ createLt.compl ∧
    (∀ a b, value createLe [a, b] = !(a || b)) ∧ (∀ a b, value createGe [a, b] = !b) := by decide

/-- **C29** (finding): no single variable order makes both the order relations and the if-then-else table right. -/
theorem C29_no_common_order :
    (¬ ∀ a b, value createLt [a, b] = decide (a < b)) ∧
    (¬ ∀ a b c, valueMsb createIte [a, b, c] = (if a then b else c)) := by decide

/-- **C29** (multi-output functions): with the first input as most significant bit, the double wire passes both inputs
through, the crossing swaps them; fan-out copies; the half adder gives sum and carry. -/
theorem C29_multi_output (a b : Bool) :
    createDoubleWire.map (fun t => valueMsb t [a, b]) = [a, b] ∧
    createCrossingWire.map (fun t => valueMsb t [a, b]) = [b, a] ∧
    createFanOut.map (fun t => valueMsb t [a]) = [a, a] ∧
    createHalfAdder.map (fun t => valueMsb t [a, b]) = [a ^^ b, a && b] := by
  revert a b; decide

theorem evaluateOutputFrom_bit (tts : List TT) (index : Nat) : ∀ i bits, (∀ k, i ≤ k → bits.testBit k = false) →
    ∀ k, (evaluateOutputFrom tts index i bits).testBit k =
      if k < i then bits.testBit k else ((tts[k - i]?).map (·.get index)).getD false := by
  induction tts with
  | nil =>
    intro i bits h k
    simp only [evaluateOutputFrom, List.getElem?_nil, Option.map_none, Option.getD_none]
    split
    · rfl
    · exact h k (by omega)
  | cons t ts ih =>
    intro i bits h k
    simp only [evaluateOutputFrom]
    rw [ih (i + 1)]
    · by_cases h1 : k < i
      · rw [if_pos (by omega), if_pos h1]
        split
        · rw [Nat.testBit_or, Nat.testBit_two_pow_of_ne (by omega), Bool.or_false]
        · rfl
      · rw [if_neg h1]
        by_cases h2 : k = i
        · subst h2
          rw [if_pos (by omega), Nat.sub_self]
          have := h k (Nat.le_refl _)
          split <;> simp_all [Nat.testBit_or, Nat.testBit_two_pow_self]
        · rw [if_neg (by omega), show k - i = (k - (i + 1)) + 1 by omega, List.getElem?_cons_succ]
    · intro j hj
      split
      · rw [Nat.testBit_or, Nat.testBit_two_pow_of_ne (by omega), Bool.or_false]
        exact h j (by omega)
      · exact h j (by omega)

/-- **C29** (evaluation of several outputs): bit `k` of the result is the value of output `k`; bits beyond the last
output are clear. -/
theorem C29_evaluate_output (tts : List TT) (index k : Nat) :
    (evaluateOutput tts index).testBit k = ((tts[k]?).map (·.get index)).getD false := by
  have := evaluateOutputFrom_bit tts index 0 0 (by simp) k
  simpa [evaluateOutput] using this

example : evaluateOutput createHalfAdder 3 = 2 := by decide

/-! ## C30 -/

/-- The Boolean function a gate is named after. -/
def Gate.meaning : Gate → List Bool → Bool
  | .buf, [a] => a
  | .not, [a] => !a
  | .and, [a, b] => a && b
  | .nand, [a, b] => !(a && b)
  | .or, [a, b] => a || b
  | .nor, [a, b] => !(a || b)
  | .lt, [a, b] => decide (a < b)
  | .ge, [a, b] => decide (b ≤ a)
  | .gt, [a, b] => decide (b < a)
  | .le, [a, b] => decide (a ≤ b)
  | .xor, [a, b] => a ^^ b
  | .xnor, [a, b] => !(a ^^ b)
  | .maj, [a, b, c] => decide (2 ≤ a.toNat + b.toNat + c.toNat)
  | .ite, [a, b, c] => if a then b else c
  | .xor3, [a, b, c] => a ^^ b ^^ c
  | .dot, [a, b, c] => a ^^ (c || (a && b))
  | .and3, [a, b, c] => a && b && c
  | .xorAnd, [a, b, c] => a && (b ^^ c)
  | .orAnd, [a, b, c] => a && (b || c)
  | .onehot, [a, b, c] => decide (a.toNat + b.toNat + c.toNat = 1)
  | .gamble, [a, b, c] => a == b && b == c
  | .andXor, [a, b, c] => a ^^ (b && c)
  | _, _ => false

def Gate.arity : Gate → Nat
  | .buf | .not => 1
  | .and | .nand | .or | .nor | .lt | .ge | .gt | .le | .xor | .xnor => 2
  | _ => 3

theorem forall_list_length {n : Nat} {P : List Bool → Prop} :
    (∀ l, l.length = n → P l) ↔ (match n with
      | 0 => P []
      | n + 1 => ∀ b, ∀ l, l.length = n → P (b :: l)) := by
  cases n with
  | zero => simp
  | succ n =>
    simp only
    constructor
    · intro h b l hl; exact h _ (by simp [hl])
    · intro h l hl
      cases l with
      | nil => simp at hl
      | cons b l => exact h b l (by simpa using hl)

def isOrder (g : Gate) : Bool := g = .lt || g = .ge || g = .gt || g = .le

/-- **C30** (functions, both interfaces): every gate of a technology network, and of a gate-level layout as far as the
layout offers it, stores a table that denotes the function the gate is named after with child `j` as variable `j`,
except for the four order relations, which denote the relation with the operands exchanged. -/
theorem C30_gate_functions (g : Gate) :
    (∃ t, networkCache.lookup g.literal = some t ∧ t.vars = g.arity ∧
      ∀ vs, vs.length = g.arity → value t vs = g.meaning (if isOrder g then vs.reverse else vs)) ∧
    (g.literal ≤ 15 → layoutCache.lookup g.literal = networkCache.lookup g.literal) := by
  cases g <;> refine ⟨⟨_, rfl, rfl, ?_⟩, by decide⟩ <;>
    simp only [Gate.arity, forall_list_length] <;> intro a <;> (try intro b) <;> (try intro c) <;> revert a <;>
    (try revert b) <;> (try revert c) <;> decide

/-- **C30** (finding): `create_lt` yields a node whose function, evaluated on truth tables, is greater-than. -/
theorem C30_lt_is_gt :
    ∃ t, layoutCache.lookup Gate.lt.literal = some t ∧
      value t [true, false] = true ∧ Gate.lt.meaning [true, false] = false ∧
      Gate.gt.meaning [true, false] = true := ⟨_, rfl, by decide⟩

theorem pattern_value (g : TT) (tts : List TT) (i : Nat) :
    g.get (pattern tts i 0) = value g (tts.map (·.get i)) := by
  have key : ∀ (tts : List TT) j, pattern tts i j =
      2 ^ j * (tts.map (·.get i)).foldr (fun b i => b.toNat + 2 * i) 0 := by
    intro tts
    induction tts with
    | nil => intro j; rfl
    | cons t ts ih =>
      intro j
      simp only [pattern, List.map_cons, List.foldr_cons, ih]
      cases t.get i
      · simp only [Bool.toNat_false, Nat.zero_shiftLeft, Nat.zero_or, Nat.zero_add]
        rw [Nat.pow_succ]
        ac_rfl
      · simp only [Bool.toNat_true]
        rw [Nat.shiftLeft_eq, Nat.one_mul, Nat.mul_add, Nat.mul_one, Nat.pow_succ, Nat.mul_assoc]
        rw [show 2 ^ j + 2 ^ j * (2 * (ts.map (·.get i)).foldr (fun b i => b.toNat + 2 * i) 0) =
          2 ^ (j + 1) * (ts.map (·.get i)).foldr (fun b i => b.toNat + 2 * i) 0 + 2 ^ j by rw [Nat.pow_succ]; ac_rfl,
          Nat.two_pow_add_eq_or_of_lt (by rw [Nat.pow_succ]; have := Nat.two_pow_pos j; omega)]
        rw [Nat.pow_succ, Nat.or_comm]
        congr 1
        ac_rfl
  simp [key, value]

theorem computeLoop_bit (g : TT) (tts : List TT) (n k : Nat) :
    (computeLoop g tts n 0).testBit k = (decide (k < n) && g.get (pattern tts k 0)) := by
  induction n with
  | zero => simp [computeLoop]
  | succ n ih =>
    simp only [computeLoop]
    by_cases hk : k = n
    · subst hk
      split <;> simp_all [Nat.testBit_or, Nat.testBit_two_pow_self]
    · have : decide (k < n + 1) = decide (k < n) := by simp; omega
      rw [this]
      split
      · rw [Nat.testBit_or, Nat.testBit_two_pow_of_ne (by omega), Bool.or_false, ih]
      · exact ih

/-- **C30** (simulation on truth tables): for every node function and all child tables over the same variables, the
computed table is the pointwise composition: under every assignment its value is the node function applied to the
children's values. -/
theorem C30_compute_tt (g t : TT) (ts : List TT) :
    ∃ r, computeTT g (t :: ts) = some r ∧ r.vars = t.vars ∧
      ∀ i, i < 2 ^ t.vars → r.get i = value g ((t :: ts).map (·.get i)) := by
  refine ⟨_, rfl, rfl, fun i hi => ?_⟩
  rw [← pattern_value]
  simp [TT.get, computeLoop_bit, hi]

/-- **C30** (two evaluation routines): the Boolean overload reads the children in the opposite order. -/
theorem C30_compute_bool (g : TT) (vs : List Bool) : computeBool g vs = valueMsb g vs := by
  have key : ∀ (vs : List Bool) (i : Nat), vs.foldl (fun i b => 2 * i ^^^ b.toNat) i =
      vs.foldl (fun i b => b.toNat + 2 * i) i := by
    intro vs
    induction vs with
    | nil => intro i; rfl
    | cons b vs ih =>
      intro i
      simp only [List.foldl_cons]
      rw [ih]
      congr 1
      cases b
      · simp
      · simp only [Bool.toNat_true]
        have h1 := Nat.xor_div_two (a := 2 * i) (b := 1)
        have h2 := Nat.xor_mod_two_eq (m := 2 * i) (n := 1)
        rw [show (1 : Nat) / 2 = 0 from rfl, Nat.xor_zero] at h1
        omega
  simp [computeBool, valueMsb, value, key, List.foldr_reverse]

/-- **C30** (finding): hence the two overloads of `compute` disagree on the same node and the same child values. -/
theorem C30_overloads_disagree :
    ∃ t, layoutCache.lookup Gate.lt.literal = some t ∧ ∃ vs, computeBool t vs ≠ value t vs := ⟨_, rfl, [true, false], by decide⟩

/-- They agree on every gate whose function does not depend on the order of its operands. -/
theorem C30_overloads_agree_partial (g : Gate) (hs : ∀ vs, vs.length = g.arity → g.meaning vs.reverse = g.meaning vs) :
    ∃ t, networkCache.lookup g.literal = some t ∧ ∀ vs, vs.length = g.arity → computeBool t vs = value t vs := by
  obtain ⟨t, h1, _, h3⟩ := (C30_gate_functions g).1
  refine ⟨t, h1, fun vs hv => ?_⟩
  rw [C30_compute_bool, valueMsb, h3 vs hv, h3 vs.reverse (by simpa using hv)]
  split
  · exact (hs _ (by simpa using hv))
  · exact hs vs hv

example : ∀ vs : List Bool, vs.length = Gate.maj.arity → Gate.maj.meaning vs.reverse = Gate.maj.meaning vs := by
  simp only [Gate.arity, forall_list_length]; decide

/-! ### Arbitrary functions through the cache -/

theorem findOrAppend_spec (c : Cache) (t : TT) :
    (findOrAppend c t).1[(findOrAppend c t).2]? = some t ∧ ∃ s, (findOrAppend c t).1 = c ++ s := by
  induction c with
  | nil => exact ⟨rfl, [t], rfl⟩
  | cons u us ih =>
    simp only [findOrAppend]
    split
    · rename_i h; exact ⟨by simp [h], [], by simp⟩
    · obtain ⟨h1, s, h2⟩ := ih
      exact ⟨by simpa using h1, s, by simp [h2]⟩

theorem compl_compl (t : TT) (h : t.word < 2 ^ 2 ^ t.vars) : t.compl.compl = t := by
  cases t with
  | mk v w => simp only [TT.compl] at *; congr 1; omega

/-- **C30** (arbitrary functions): the function of a node created from any truth table is that table, and creating it
does not change the function of any existing node. -/
theorem C30_create_node_function (c : Cache) (t : TT) (h : t.word < 2 ^ 2 ^ t.vars) :
    (c.insert t).1.lookup (c.insert t).2 = some t ∧
    ∀ lit u, c.lookup lit = some u → (c.insert t).1.lookup lit = some u := by
  have grow : ∀ (c d : Cache) lit u, (∃ s, d = c ++ s) → c.lookup lit = some u → d.lookup lit = some u := by
    rintro c d lit u ⟨s, rfl⟩ hu
    simp only [Cache.lookup, Option.map_eq_some_iff] at hu ⊢
    obtain ⟨v, hv, rfl⟩ := hu
    obtain ⟨hlt, hv'⟩ := List.getElem?_eq_some_iff.1 hv
    exact ⟨v, by rw [List.getElem?_append_left hlt, hv], rfl⟩
  unfold Cache.insert
  split
  · obtain ⟨h1, h2⟩ := findOrAppend_spec c t.compl
    refine ⟨?_, fun lit u => grow _ _ lit u h2⟩
    have e1 : (2 * (findOrAppend c t.compl).2 + 1) / 2 = (findOrAppend c t.compl).2 := by omega
    have e2 : (2 * (findOrAppend c t.compl).2 + 1) % 2 = 1 := by omega
    simp only [Cache.lookup, e1, h1, e2, Option.map_some, if_true, compl_compl t h]
  · obtain ⟨h1, h2⟩ := findOrAppend_spec c t
    refine ⟨?_, fun lit u => grow _ _ lit u h2⟩
    have e1 : 2 * (findOrAppend c t).2 / 2 = (findOrAppend c t).2 := by omega
    have e2 : 2 * (findOrAppend c t).2 % 2 ≠ 1 := by omega
    simp only [Cache.lookup, e1, h1, Option.map_some]
    rw [if_neg e2]

example : (fromWord 3 0x97).word < 2 ^ 2 ^ (fromWord 3 0x97).vars ∧ (networkCache.insert (fromWord 3 0x97)).2 = 35 := by
  decide

end Verif.TruthTables
