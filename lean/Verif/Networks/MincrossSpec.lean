import Verif.Networks.Views
import Mathlib.Data.List.Perm.Subperm

/-!
# Specification: crossings of a ranked network
-/
namespace Verif.Mincross

open Verif.Views

/-- An edge of the network, from a node that is not constant to a gate that reads it. -/
def Edge (N : Net) (e : Nat × Nat) : Prop :=
  e.1 < N.size ∧ N.isConst e.1 = false ∧ e.2 < N.size ∧ N.isConst e.2 = false ∧ N.isCi e.2 = false ∧ ∃ b, (e.1, b) ∈ N.fanins e.2

/-- Two edges cross: they start in the same rank, one to the left of the other, and end the other way round. -/
def Crosses (N : Net) (V : DepthView) (R : Ranks) (q : (Nat × Nat) × (Nat × Nat)) : Prop :=
  Edge N q.1 ∧ Edge N q.2 ∧ V.level q.1.1 = V.level q.2.1 ∧
  ∃ a b c d, R.pos q.1.1 = some a ∧ R.pos q.2.1 = some b ∧ R.pos q.1.2 = some c ∧ R.pos q.2.2 = some d ∧ a < b ∧ d < c

/-- There are `n` objects with the property. -/
def Counts {α : Type} (P : α → Prop) (n : Nat) : Prop := ∃ L : List α, L.Nodup ∧ (∀ q, q ∈ L ↔ P q) ∧ L.length = n

theorem Counts.unique {α : Type} {P : α → Prop} {n m : Nat} (h : Counts P n) (h' : Counts P m) : n = m := by
  obtain ⟨L, a, b, c⟩ := h
  obtain ⟨L', a', b', c'⟩ := h'
  classical
  have h1 : L.Subperm L' := List.subperm_of_subset a (fun q hq => (b' q).2 ((b q).1 hq))
  have h2 : L'.Subperm L := List.subperm_of_subset a' (fun q hq => (b q).2 ((b' q).1 hq))
  have := h1.length_le
  have := h2.length_le
  omega

/-- Each edge leads from a rank to the next one. -/
def Balanced (N : Net) (V : DepthView) : Prop := ∀ e, Edge N e → ∀ l, V.level e.1 = some l → V.level e.2 = some (l + 1)

end Verif.Mincross
