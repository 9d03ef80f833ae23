import Verif.Networks.GateCount
import Mathlib.Data.List.Count
import Mathlib.Tactic.SplitIfs
import Mathlib.Tactic.IntervalCases

/-!
# C105: counts of gate types

## Specification
-/
namespace Verif.GateCount

/-- The kind of a gate of a technology network by the number of its function; inputs are no gates. -/
def gateKind (n : Node) : Option Kind :=
  if n.isConst ∨ n.isPi then none
  else match n.lit with
    | 2 => some (if 2 ≤ n.fanouts then .fanout else .buf)
    | 3 => some .inv
    | 4 => some .and2
    | 5 => some .nand2
    | 6 => some .or2
    | 7 => some .nor2
    | 8 => some .lt2
    | 9 => some .ge2
    | 10 => some .gt2
    | 11 => some .le2
    | 12 => some .xor2
    | 13 => some .xnor2
    | 14 => some .maj3
    | 16 => some .mux
    | 20 => some .dot
    | 22 => some .and3
    | 24 => some .xorAnd
    | 26 => some .orAnd
    | 28 => some .onehot
    | 31 => some .gamble
    | 32 => some .andXor
    | _ => some .other

/-! ## Lemmas -/

/-- What a node adds to. -/
def counted (tests : List (Kind × (Node → Bool))) (n : Node) : Option Kind :=
  if n.isConst then none
  else match tests.find? (fun t => t.2 n) with
    | some t => some t.1
    | none => if n.isPi then none else some .other

theorem visit_cases (tests : List (Kind × (Node → Bool))) (s : Stats) (n : Node) :
    visit tests s n = match counted tests n with
      | some k => s.inc k
      | none => s := by
  unfold visit counted
  cases n.isConst
  · simp only [Bool.false_eq_true, if_false]
    cases tests.find? (fun t => t.2 n) with
    | some t => rfl
    | none => cases n.isPi <;> rfl
  · rfl

theorem visit_eq (tests : List (Kind × (Node → Bool))) (s : Stats) (n : Node) (k : Kind) :
    visit tests s n k = s k + if counted tests n = some k then 1 else 0 := by
  rw [visit_cases]
  cases counted tests n with
  | some t =>
    simp only [Stats.inc, Option.some.injEq]
    by_cases h : k = t
    · rw [if_pos h, if_pos h.symm]
    · rw [if_neg h, if_neg (Ne.symm h)]; rfl
  | none => simp

theorem foldl_visit (tests : List (Kind × (Node → Bool))) (k : Kind) : ∀ (nodes : List Node) (s : Stats),
    nodes.foldl (visit tests) s k = s k + nodes.countP (fun n => counted tests n == some k)
  | [], s => by simp
  | n :: nodes, s => by
    rw [List.foldl_cons, foldl_visit tests k nodes, visit_eq, List.countP_cons]
    simp only [beq_iff_eq]
    omega

theorem count_eq (tests : List (Kind × (Node → Bool))) (nodes : List Node) (k : Kind) :
    count tests nodes k = nodes.countP (fun n => counted tests n == some k) := by
  unfold count
  rw [foldl_visit, Nat.zero_add]

theorem total_inc (s : Stats) (k : Kind) : total (s.inc k) = total s + 1 := by
  cases k <;> simp [total, Stats.inc] <;> omega

theorem total_visit (tests : List (Kind × (Node → Bool))) (s : Stats) (n : Node) :
    total (visit tests s n) = total s + if (counted tests n).isSome then 1 else 0 := by
  rw [visit_cases]
  cases counted tests n with
  | some t => simp [total_inc]
  | none => simp

theorem total_foldl (tests : List (Kind × (Node → Bool))) : ∀ (nodes : List Node) (s : Stats),
    total (nodes.foldl (visit tests) s) = total s + nodes.countP (fun n => (counted tests n).isSome)
  | [], s => by simp
  | n :: nodes, s => by
    rw [List.foldl_cons, total_foldl tests nodes, total_visit, List.countP_cons]
    omega

theorem counted_network (n : Node) (h : n.isPi = true → n.lit = 2) : counted networkTests n = gateKind n := by
  obtain ⟨lit, fanouts, pi, c⟩ := n
  dsimp only at h
  cases c
  · cases pi
    · by_cases hl : lit < 33
      · interval_cases lit <;> by_cases hf : 1 < fanouts <;>
          simp [counted, networkTests, commonTests, gateKind, show (2 ≤ fanouts) = (1 < fanouts) from rfl, hf]
      · have : gateKind ⟨lit, fanouts, false, false⟩ = some .other := by
          unfold gateKind
          simp only [Bool.false_eq_true, or_self, if_false]
          split <;> first | omega | rfl
        rw [this]
        have hne : ∀ k : Nat, k < 33 → (lit == k) = false := fun k hk => by simp; omega
        simp [counted, networkTests, commonTests, hne]
    · have := h rfl
      subst this
      rfl
  · simp [counted, gateKind]

/-! ## Theorems -/

/-- C105. For a technology network, whose inputs are given the identity function, each counter is the number of gates of its kind,
and the reported total is the number of gates. -/
theorem C105_network (nodes : List Node) (h : ∀ n ∈ nodes, n.isPi = true → n.lit = 2) :
    (∀ k, count networkTests nodes k = nodes.countP (fun n => gateKind n == some k)) ∧
      total (count networkTests nodes) = nodes.countP (fun n => !n.isConst && !n.isPi) := by
  constructor
  · intro k
    rw [count_eq]
    exact List.countP_congr fun n hn => by rw [counted_network n (h n hn)]
  · unfold count
    rw [total_foldl]
    have h0 : total (fun _ => 0) = 0 := rfl
    rw [h0, Nat.zero_add]
    refine List.countP_congr fun n hn => ?_
    rw [counted_network n (h n hn)]
    unfold gateKind
    by_cases hc : n.isConst = true ∨ n.isPi = true
    · rw [if_pos hc]
      cases hc1 : n.isConst <;> cases hc2 : n.isPi <;> simp_all
    · rw [if_neg hc]
      rw [not_or, Bool.not_eq_true, Bool.not_eq_true] at hc
      rw [hc.1, hc.2]
      split <;> simp

theorem counted_layout (n : Node) (h : n.isPi = true → n.lit = 2) (hl : n.lit ≤ 14) :
    counted layoutTests n = if n.isConst then none else gateKind { n with isPi := false } := by
  obtain ⟨lit, fanouts, pi, c⟩ := n
  dsimp only at h hl
  cases c
  · cases pi
    · interval_cases lit <;> by_cases hf : 1 < fanouts <;>
        simp [counted, layoutTests, commonTests, gateKind, show (2 ≤ fanouts) = (1 < fanouts) from rfl, hf]
    · have := h rfl
      subst this
      by_cases hf : 1 < fanouts <;>
        simp [counted, layoutTests, gateKind, show (2 ≤ fanouts) = (1 < fanouts) from rfl, hf]
  · simp [counted]

/-- C105. For a gate-level layout without functions of other kinds, the counters other than those of wires are right. Missing:
the counters of wires, which are false as they include the inputs, see C105_layout_wires and C105_false_layout. -/
theorem C105_layout_partial (nodes : List Node) (h : ∀ n ∈ nodes, n.isPi = true → n.lit = 2) (hl : ∀ n ∈ nodes, n.lit ≤ 14)
    (k : Kind) (h1 : k ≠ .buf) (h2 : k ≠ .fanout) :
    count layoutTests nodes k = nodes.countP (fun n => gateKind n == some k) := by
  rw [count_eq]
  refine List.countP_congr fun n hn => ?_
  rw [counted_layout n (h n hn) (hl n hn)]
  cases hp : n.isPi
  · have : ({ n with isPi := false } : Node) = n := by rw [← hp]
    rw [this]
    unfold gateKind
    cases hc : n.isConst <;> simp [hp]
  · have hlit := h n hn hp
    unfold gateKind
    cases hc : n.isConst
    · simp only [Bool.false_eq_true, hp, or_true, if_true, if_false, or_self, hlit]
      split_ifs <;> simp [h1.symm, h2.symm]
    · simp

/-- C105. For gate-level layouts the total is the number of nodes, including inputs. -/
theorem C105_layout_wires (nodes : List Node) (h : ∀ n ∈ nodes, n.isPi = true → n.lit = 2) :
    total (count layoutTests nodes) = nodes.countP (fun n => !n.isConst) := by
  unfold count
  rw [total_foldl]
  have h0 : total (fun _ => 0) = 0 := rfl
  rw [h0, Nat.zero_add]
  refine List.countP_congr fun n hn => ?_
  unfold counted
  cases hc : n.isConst
  · simp only [Bool.false_eq_true, if_false]
    cases hf : layoutTests.find? (fun t => t.2 n) with
    | some t => simp
    | none =>
      cases hp : n.isPi
      · simp
      · rw [List.find?_eq_none] at hf
        exact absurd (h n hn hp) (by
          have := hf (.buf, fun n => n.lit == 2) (by simp [layoutTests])
          simpa using this)
  · simp

/-! ## Where the property fails, and examples -/

/-- Two inputs, a conjunction and an output. -/
def sample : List Node := [⟨0, 0, false, true⟩, ⟨1, 0, false, true⟩, ⟨2, 1, true, false⟩, ⟨2, 2, true, false⟩, ⟨4, 1, false, false⟩,
  ⟨2, 0, false, false⟩]

/-- C105. Inputs of a layout are counted as wires or fan-outs, while those of a technology network are not. -/
theorem C105_false_layout : count layoutTests sample .buf = 2 ∧ count layoutTests sample .fanout = 1 ∧
    count networkTests sample .buf = 1 ∧ count networkTests sample .fanout = 0 := by decide +kernel

example : (∀ n ∈ sample, n.isPi = true → n.lit = 2) ∧ (∀ n ∈ sample, n.lit ≤ 14) ∧ count layoutTests sample .and2 = 1 ∧
    total (count networkTests sample) = 2 := by decide +kernel

end Verif.GateCount
