import Verif.Io.SqdResult
import Verif.Sidb.ChargeTextProps
import Mathlib.Algebra.Order.Ring.Rat
import Mathlib.Data.List.Sort

/-!
# C114: written simulation results

## Specification
-/
namespace Verif.SqdResult

open Verif.ChargeText

variable {P Q : Type}

/-- An element describes a surface: its energy and validity, and one character for each position in their order, which stands for the
charge of the SiDB there. -/
def Describes (position : P → Q) (ds : List Q) (s : Surface P) (e : DistElem) : Prop :=
  e.energy = s.energy ∧ (e.valid = 1 ↔ s.valid = true) ∧ e.valid ≤ 1 ∧ e.count = 1 ∧
    ∃ cs : List P, cs.Perm s.cells ∧ cs.map position = ds ∧ e.charges.map charge = cs.map (fun c => some (toSign (s.charge c)))

/-- All surfaces of a result have the same SiDBs, each of which has a charge. -/
def Uniform (ss : List (Surface P)) : Prop :=
  (∀ s ∈ ss, ∀ t ∈ ss, s.cells.Perm t.cells) ∧ ∀ s ∈ ss, ∀ c ∈ s.cells, s.charge c ≠ .none

/-! ## Theorems -/

/-- C114. The positions are those of all SiDBs, in the order of cells. -/
theorem C114_positions (le : P → P → Bool) (htr : ∀ a b c, le a b = true → le b c = true → le a c = true)
    (hto : ∀ a b, (le a b || le b a) = true) (position : P → Q) (s : Surface P) (ss : List (Surface P)) :
    ∃ cs : List P, cs.Perm s.cells ∧ cs.Pairwise (fun a b => le a b = true) ∧ dots le position (s :: ss) = cs.map position :=
  ⟨s.cells.mergeSort le, List.mergeSort_perm _ _, List.pairwise_mergeSort htr hto _, rfl⟩

/-- C114. There is one element for each surface, in ascending order of energies, and each describes its surface. -/
theorem C114_distributions (le : P → P → Bool) (position : P → Q) (ss : List (Surface P)) (hu : Uniform ss) :
    ∃ order : List (Surface P), order.Perm ss ∧ order.Pairwise (fun a b => a.energy ≤ b.energy) ∧
      List.Forall₂ (Describes position (dots le position ss)) order (elements le ss) := by
  have hp : (ss.mergeSort (fun a b => decide (a.energy ≤ b.energy))).Perm ss := List.mergeSort_perm _ _
  refine ⟨_, hp, ?_, ?_⟩
  · have h := List.pairwise_mergeSort (le := fun (a b : Surface P) => decide (a.energy ≤ b.energy))
      (fun a b c h1 h2 => by simp only [decide_eq_true_eq] at h1 h2 ⊢; exact le_trans h1 h2)
      (fun a b => by simp only [Bool.or_eq_true, decide_eq_true_eq]; exact le_total _ _) ss
    exact h.imp fun h => by simpa using h
  · unfold elements
    rw [List.forall₂_map_right_iff, List.forall₂_same]
    intro s hs
    have hs' := hp.mem_iff.1 hs
    cases ss with
    | nil => cases hs'
    | cons t ts =>
      have hc : (orderedCells le (t :: ts)).Perm s.cells :=
        (List.mergeSort_perm _ _).trans (hu.1 t (by simp) s hs')
      refine ⟨rfl, ?_, ?_, rfl, orderedCells le (t :: ts), hc, rfl, ?_⟩
      · unfold element
        dsimp only
        split <;> simp_all
      · unfold element
        dsimp only
        split <;> omega
      · unfold element
        dsimp only
        rw [C109_text, List.filter_eq_self.2, List.map_map]
        · rfl
        · intro a ha
          obtain ⟨c, hc', rfl⟩ := List.mem_map.1 ha
          exact decide_eq_true (hu.2 s hs' c (hc.mem_iff.1 hc'))

/-- C114. Without distributions neither positions nor elements are written. -/
theorem C114_empty (le : P → P → Bool) (position : P → Q) : dots le position [] = [] ∧ elements le [] = [] := by
  constructor
  · rfl
  · unfold elements
    rw [List.mergeSort_nil, List.map_nil]

/-! ## Examples -/

/-- Two surfaces with two SiDBs. -/
def sample : List (Surface Nat) :=
  [⟨2, true, [5, 3], fun _ => .negative⟩, ⟨1, false, [3, 5], fun c => if c = 3 then .positive else .neutral⟩]

example : Uniform sample := by
  constructor
  · decide +kernel
  · decide +kernel

example : (element [3, 5] ⟨1, false, [3, 5], fun c => if c = 3 then .positive else .neutral⟩).charges = ['+', '0'] := by
  decide +kernel

end Verif.SqdResult
