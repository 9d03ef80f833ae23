import Verif.Clocking.Model
import Verif.Layouts.HexProps
import Mathlib.Logic.Relation
import Mathlib.Tactic.SplitIfs

/-! # Helper lemmas for the clocking properties -/

namespace Verif.Clocking

open Verif.Layouts

theorem get_mem {t : Topo} {n : List Char} {s : Scheme} (h : getClockingScheme t n = some s) :
    (n.map Char.toUpper, s) ∈ schemeLookup t := by
  unfold getClockingScheme at h
  rw [Option.map_eq_some_iff] at h
  obtain ⟨⟨k, s'⟩, hf, rfl⟩ := h
  have hm := List.mem_of_find?_eq_some hf
  have hk := List.find?_some hf
  simp only [beq_iff_eq] at hk
  rw [← hk]; exact hm

theorem tab_columnar3 : ∀ r < 3, ∀ c < 3, look columnar3 r c = c := by decide
theorem tab_columnar4 : ∀ r < 4, ∀ c < 4, look columnar4 r c = c := by decide
theorem tab_row3 : ∀ r < 3, ∀ c < 3, look row3 r c = r := by decide
theorem tab_row4 : ∀ r < 4, ∀ c < 4, look row4 r c = r := by decide
theorem tab_twoDD3 : ∀ r < 3, ∀ c < 3, look twoDD3 r c = (r + c) % 3 := by decide
theorem tab_twoDD4 : ∀ r < 4, ∀ c < 4, look twoDD4 r c = (r + c) % 4 := by decide
theorem tab_odd3 : ∀ r < 6, ∀ c < 3, look odd3 r c = (c + (r + 1) / 2) % 3 := by decide
theorem tab_odd4 : ∀ r < 8, ∀ c < 4, look odd4 r c = (c + (r + 1) / 2) % 4 := by decide
theorem tab_even3 : ∀ r < 6, ∀ c < 3, look even3 r c = (c + r / 2) % 3 := by decide
theorem tab_even4 : ∀ r < 8, ∀ c < 4, look even4 r c = (c + r / 2) % 4 := by decide

theorem fn_columnar (t : Topo) (n : NumClks) (c : Coord) : (columnarClocking t n).fn c = c.x % n.val := by
  cases n <;> simp only [columnarClocking, byRow, NumClks.val]
  · rw [tab_columnar3 _ (by omega) _ (by omega)]
  · rw [tab_columnar4 _ (by omega) _ (by omega)]

theorem fn_row (t : Topo) (n : NumClks) (c : Coord) : (rowClocking t n).fn c = c.y % n.val := by
  cases n <;> simp only [rowClocking, byRow, NumClks.val]
  · rw [tab_row3 _ (by omega) _ (by omega)]
  · rw [tab_row4 _ (by omega) _ (by omega)]

theorem fn_twoddwave (t : Topo) (n : NumClks) (c : Coord) :
    (twoddwaveClocking t n).fn c = (c.x + c.y) % n.val := by
  cases n <;> simp only [twoddwaveClocking, byRow, NumClks.val]
  · rw [tab_twoDD3 _ (by omega) _ (by omega)]; omega
  · rw [tab_twoDD4 _ (by omega) _ (by omega)]; omega

/-- Wave front of a hexagonal zone. -/
def hexFront : Hex.Arr → Coord → Nat
  | .oddRow, c => c.x + (c.y + 1) / 2
  | .evenRow, c => c.x + c.y / 2
  | .oddColumn, c => c.y + (c.x + 1) / 2
  | .evenColumn, c => c.y + c.x / 2

theorem fn_hex (a : Hex.Arr) (n : NumClks) (c : Coord) : hexFn a n c = hexFront a c % n.val := by
  cases a <;> cases n <;> simp only [hexFn, byRow, byCol, NumClks.val, hexFront]
  · rw [tab_odd3 _ (by omega) _ (by omega)]; omega
  · rw [tab_odd4 _ (by omega) _ (by omega)]; omega
  · rw [tab_even3 _ (by omega) _ (by omega)]; omega
  · rw [tab_even4 _ (by omega) _ (by omega)]; omega
  · rw [tab_odd3 _ (by omega) _ (by omega)]; omega
  · rw [tab_odd4 _ (by omega) _ (by omega)]; omega
  · rw [tab_even3 _ (by omega) _ (by omega)]; omega
  · rw [tab_even4 _ (by omega) _ (by omega)]; omega

theorem tab_small : (∀ r < 4, ∀ c < 4, look useTable r c < 4) ∧ (∀ r < 4, ∀ c < 4, look resTable r c < 4) ∧
    (∀ r < 4, ∀ c < 4, look esrTable r c < 4) ∧ (∀ r < 4, ∀ c < 4, look cfeTable r c < 4) ∧
    (∀ r < 4, ∀ c < 4, look rippleTable r c < 4) ∧ (∀ r < 4, ∀ c < 4, look srsTable r c < 4) ∧
    (∀ r < 6, ∀ c < 3, look bancsTable r c < 3) := by decide

/-! ## Degrees in Cartesian layouts -/

/-- Number of directions in which a zone in row class `r` and column class `c` has a neighbour whose
clock number is `d` ahead (`out`) or behind. -/
def dirCount (t : List (List Nat)) (p q n : Nat) (out : Bool) (r c : Nat) : Nat :=
  let f := fun r' c' => if out then decide ((look t r c + 1) % n = look t r' c')
    else decide ((look t r' c' + 1) % n = look t r c)
  (if f ((r + p - 1) % p) c then 1 else 0) + (if f r ((c + 1) % q) then 1 else 0) +
  (if f ((r + 1) % p) c then 1 else 0) + (if f r ((c + q - 1) % q) then 1 else 0)

theorem ite_le {p q : Prop} [Decidable p] [Decidable q] (h : p → q) :
    (if p then 1 else 0 : Nat) ≤ (if q then 1 else 0) := by
  by_cases hp : p
  · rw [if_pos hp, if_pos (h hp)]; exact Nat.le_refl _
  · rw [if_neg hp]; exact Nat.zero_le _

theorem filter_adj_le (m : Dim) (c : Coord) (h : InBounds m c) (P : Coord → Bool) :
    ((Cart.adjacentCoordinates m c).filter P).length ≤
      (if 0 < c.y ∧ P { c with y := c.y - 1 } = true then 1 else 0) +
      (if P { c with x := c.x + 1 } then 1 else 0) +
      (if P { c with y := c.y + 1 } then 1 else 0) +
      (if 0 < c.x ∧ P { c with x := c.x - 1 } = true then 1 else 0) := by
  obtain ⟨hd, h1, h2, h3⟩ := h
  rw [Cart.adjacentCoordinates, List.filter_filter]
  have one : ∀ e : Coord, ([e].filter (fun a => P a && a != c)).length ≤
      if P e = true ∧ e ≠ c then 1 else 0 := by
    intro e
    by_cases hp : P e = true <;> by_cases he : e = c <;> simp [hp, he]
  have split : ∀ a b d e : Coord, ([a, b, d, e].filter (fun a => P a && a != c)).length =
      ([a].filter (fun a => P a && a != c)).length + ([b].filter (fun a => P a && a != c)).length +
      ([d].filter (fun a => P a && a != c)).length + ([e].filter (fun a => P a && a != c)).length := by
    intro a b d e
    rw [show [a, b, d, e] = [a] ++ [b] ++ [d] ++ [e] from rfl]
    simp only [List.filter_append, List.length_append]
  rw [split]
  refine Nat.add_le_add (Nat.add_le_add (Nat.add_le_add ?_ ?_) ?_) ?_
  · refine Nat.le_trans (one _) ?_
    unfold Cart.north
    by_cases hy : c.y = 0
    · simp [hy]
    · rw [if_neg hy]; split_ifs <;> simp_all <;> omega
  · refine Nat.le_trans (one _) ?_
    unfold Cart.east
    simp only [gt_iff_lt, if_neg (Nat.not_lt.2 h1), if_neg (Nat.not_lt.2 h2)]
    split_ifs <;> simp_all
  · refine Nat.le_trans (one _) ?_
    unfold Cart.south
    simp only [gt_iff_lt, if_neg (Nat.not_lt.2 h1), if_neg (Nat.not_lt.2 h2)]
    split_ifs <;> simp_all
  · refine Nat.le_trans (one _) ?_
    unfold Cart.west
    by_cases hy : c.x = 0
    · simp [hy]
    · rw [if_neg hy]; split_ifs <;> simp_all <;> omega

theorem mod_pred (y p : Nat) (hp : 0 < p) (hy : 0 < y) : (y - 1) % p = (y % p + p - 1) % p := by
  obtain ⟨k, rfl⟩ : ∃ k, y = k + 1 := ⟨y - 1, by omega⟩
  rw [Nat.add_sub_cancel]
  have h1 : ((k + 1) % p + p - 1) % p = ((k + 1) % p + (p - 1)) % p := by congr 1; omega
  rw [h1, Nat.mod_add_mod]
  rw [show k + 1 + (p - 1) = k + p by omega, Nat.add_mod_right]

theorem mod_succ (y p : Nat) : (y + 1) % p = (y % p + 1) % p := by rw [Nat.mod_add_mod]

theorem degree_le (t : List (List Nat)) (p q : Nat) (hp : 0 < p) (hq : 0 < q) (m : Dim) (s : Scheme)
    (hr : s.regular = true) (hf : s.fn = byRow t p q) (c : Coord) (h : InBounds m c) :
    inDegree .cart m s c ≤ dirCount t p q s.numClocks false (c.y % p) (c.x % q) ∧
    outDegree .cart m s c ≤ dirCount t p q s.numClocks true (c.y % p) (c.x % q) := by
  have hc : ∀ e, s.clock e = byRow t p q e := by intro e; simp [Scheme.clock, hr, hf]
  constructor
  · refine Nat.le_trans (filter_adj_le m c h _) ?_
    unfold dirCount isIncomingClocked
    simp only [hc, byRow]
    refine Nat.add_le_add (Nat.add_le_add (Nat.add_le_add ?_ ?_) ?_) ?_
    · by_cases hy : 0 < c.y
      · rw [← mod_pred c.y p hp hy]; exact ite_le (by grind)
      · rw [if_neg (by simp [hy])]; exact Nat.zero_le _
    · rw [← mod_succ]; exact ite_le (by grind)
    · rw [← mod_succ]; exact ite_le (by grind)
    · by_cases hy : 0 < c.x
      · rw [← mod_pred c.x q hq hy]; exact ite_le (by grind)
      · rw [if_neg (by simp [hy])]; exact Nat.zero_le _
  · refine Nat.le_trans (filter_adj_le m c h _) ?_
    unfold dirCount isOutgoingClocked
    simp only [hc, byRow]
    refine Nat.add_le_add (Nat.add_le_add (Nat.add_le_add ?_ ?_) ?_) ?_
    · by_cases hy : 0 < c.y
      · rw [← mod_pred c.y p hp hy]; exact ite_le (by grind)
      · rw [if_neg (by simp [hy])]; exact Nat.zero_le _
    · rw [← mod_succ]; exact ite_le (by grind)
    · rw [← mod_succ]; exact ite_le (by grind)
    · by_cases hy : 0 < c.x
      · rw [← mod_pred c.x q hq hy]; exact ite_le (by grind)
      · rw [if_neg (by simp [hy])]; exact Nat.zero_le _

end Verif.Clocking
