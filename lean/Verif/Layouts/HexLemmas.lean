import Verif.Layouts.Model

namespace Verif.Layouts.Hex

theorem half_neg (n : Int) : (n + -1 * (n % 2)).tdiv 2 = (n - n % 2) / 2 := by
  rw [Int.tdiv_eq_ediv_of_dvd (by omega)]; omega

theorem half_pos (n : Int) : (n + 1 * (n % 2)).tdiv 2 = (n + n % 2) / 2 := by
  rw [Int.tdiv_eq_ediv_of_dvd (by omega)]; omega

/-- Unfolding of `move` for the four arrangements with floor divisions. -/
theorem move_oddRow (c : Coord) (i j k : Int) : move .oddRow c ⟨i, j, k⟩ =
    { x := cast31 ((c.x : Int) - ((c.y : Int) - (c.y : Int) % 2) / 2 + i +
        ((c.y : Int) + k - ((c.y : Int) + k) % 2) / 2),
      y := cast31 ((c.y : Int) + k), z := c.z } := by
  have h : ∀ n : Int, (n + -(n % 2)).tdiv 2 = (n - n % 2) / 2 := fun n => by
    have := half_neg n; rwa [Int.neg_one_mul] at this
  simp [move, toOffset, toCube, CubeC.add, Arr.pointy, Arr.off, bit0, h]

theorem move_evenRow (c : Coord) (i j k : Int) : move .evenRow c ⟨i, j, k⟩ =
    { x := cast31 ((c.x : Int) - ((c.y : Int) + (c.y : Int) % 2) / 2 + i +
        ((c.y : Int) + k + ((c.y : Int) + k) % 2) / 2),
      y := cast31 ((c.y : Int) + k), z := c.z } := by
  have := half_pos
  simp only [Int.one_mul] at this
  simp [move, toOffset, toCube, CubeC.add, Arr.pointy, Arr.off, bit0, this]

theorem move_oddColumn (c : Coord) (i j k : Int) : move .oddColumn c ⟨i, j, k⟩ =
    { x := cast31 ((c.x : Int) + i),
      y := cast31 ((c.y : Int) - ((c.x : Int) - (c.x : Int) % 2) / 2 + k +
        ((c.x : Int) + i - ((c.x : Int) + i) % 2) / 2), z := c.z } := by
  have h : ∀ n : Int, (n + -(n % 2)).tdiv 2 = (n - n % 2) / 2 := fun n => by
    have := half_neg n; rwa [Int.neg_one_mul] at this
  simp [move, toOffset, toCube, CubeC.add, Arr.pointy, Arr.off, bit0, h]

theorem move_evenColumn (c : Coord) (i j k : Int) : move .evenColumn c ⟨i, j, k⟩ =
    { x := cast31 ((c.x : Int) + i),
      y := cast31 ((c.y : Int) - ((c.x : Int) + (c.x : Int) % 2) / 2 + k +
        ((c.x : Int) + i + ((c.x : Int) + i) % 2) / 2), z := c.z } := by
  have := half_pos
  simp only [Int.one_mul] at this
  simp [move, toOffset, toCube, CubeC.add, Arr.pointy, Arr.off, bit0, this]

/-- A neighbour is in bounds iff the exact integer position is, and then no wrap-around happened. -/
theorem cast31_le (n : Int) (X : Nat) (hX : X < 2147483647) (h1 : -1 ≤ n) (h2 : n ≤ 2147483647) :
    (cast31 n ≤ X ↔ 0 ≤ n ∧ n ≤ X) := by
  unfold cast31; omega

theorem cast31_of (n : Int) (h1 : 0 ≤ n) (h2 : n ≤ 2147483647) : (cast31 n : Int) = n := by
  unfold cast31; omega

end Verif.Layouts.Hex

namespace Verif.Layouts.Hex

/-- Exact integer position reached by a cube direction. -/
def target (a : Arr) (x y : Nat) (q : CubeC) : Int × Int :=
  match a with
  | .oddRow => ((x : Int) - ((y : Int) - (y : Int) % 2) / 2 + q.x + ((y : Int) + q.z - ((y : Int) + q.z) % 2) / 2,
      (y : Int) + q.z)
  | .evenRow => ((x : Int) - ((y : Int) + (y : Int) % 2) / 2 + q.x + ((y : Int) + q.z + ((y : Int) + q.z) % 2) / 2,
      (y : Int) + q.z)
  | .oddColumn => ((x : Int) + q.x, (y : Int) - ((x : Int) - (x : Int) % 2) / 2 + q.z +
      ((x : Int) + q.x - ((x : Int) + q.x) % 2) / 2)
  | .evenColumn => ((x : Int) + q.x, (y : Int) - ((x : Int) + (x : Int) % 2) / 2 + q.z +
      ((x : Int) + q.x + ((x : Int) + q.x) % 2) / 2)

theorem move_target (a : Arr) (c : Coord) (q : CubeC) :
    move a c q = { x := cast31 (target a c.x c.y q).1, y := cast31 (target a c.x c.y q).2, z := c.z } := by
  obtain ⟨i, j, k⟩ := q
  cases a
  · rw [move_oddRow]; rfl
  · rw [move_evenRow]; rfl
  · rw [move_oddColumn]; rfl
  · rw [move_evenColumn]; rfl

theorem move_inBounds (a : Arr) (m : Dim) (hX : m.X < 2^31 - 1) (hY : m.Y < 2^31 - 1)
    (c e : Coord) (q : CubeC) (hx : c.x ≤ m.X) (hy : c.y ≤ m.Y) (hz : c.z ≤ m.Z)
    (hq : -1 ≤ q.x ∧ q.x ≤ 1 ∧ -1 ≤ q.z ∧ q.z ≤ 1 ∧ -1 ≤ q.x + q.z ∧ q.x + q.z ≤ 1) :
    (e = move a c q ∧ Cart.isWithinBounds m e = true) ↔
      (e.d = false ∧ e.z = c.z ∧ e.x ≤ m.X ∧ e.y ≤ m.Y ∧
        (e.x : Int) = (target a c.x c.y q).1 ∧ (e.y : Int) = (target a c.x c.y q).2) := by
  have hq' : -1 ≤ (target a c.x c.y q).1 ∧ -1 ≤ (target a c.x c.y q).2 := by
    cases a <;> simp only [target] <;> omega
  have hb : (target a c.x c.y q).1 ≤ (c.x : Int) + 1 ∧ (target a c.x c.y q).2 ≤ (c.y : Int) + 1 := by
    cases a <;> simp only [target] <;> omega
  rw [move_target]
  generalize target a c.x c.y q = t at *
  obtain ⟨x', y', z', d'⟩ := e
  simp only [Cart.isWithinBounds, Bool.and_eq_true, decide_eq_true_eq, Coord.mk.injEq]
  unfold cast31
  constructor
  · rintro ⟨⟨k1, k2, k3, k4⟩, k5⟩
    exact ⟨k4, k3, by omega, by omega, by omega, by omega⟩
  · rintro ⟨k1, k2, k3, k4, k5, k6⟩
    exact ⟨⟨by omega, by omega, k2, k1⟩, by omega⟩

end Verif.Layouts.Hex

namespace Verif.Layouts.Hex

theorem targets_oddRow (x y : Nat) : cubeDirections.map (target .oddRow x y) =
    [((x : Int) + 1, (y : Int)), ((x : Int) + y % 2, (y : Int) - 1), ((x : Int) + y % 2 - 1, (y : Int) - 1),
     ((x : Int) - 1, (y : Int)), ((x : Int) + y % 2 - 1, (y : Int) + 1), ((x : Int) + y % 2, (y : Int) + 1)] := by
  simp only [cubeDirections, List.map_cons, List.map_nil, target, List.cons.injEq, Prod.mk.injEq, and_true]
  repeat' constructor
  all_goals first | rfl | omega

theorem targets_evenRow (x y : Nat) : cubeDirections.map (target .evenRow x y) =
    [((x : Int) + 1, (y : Int)), ((x : Int) + 1 - y % 2, (y : Int) - 1), ((x : Int) - y % 2, (y : Int) - 1),
     ((x : Int) - 1, (y : Int)), ((x : Int) - y % 2, (y : Int) + 1), ((x : Int) + 1 - y % 2, (y : Int) + 1)] := by
  simp only [cubeDirections, List.map_cons, List.map_nil, target, List.cons.injEq, Prod.mk.injEq, and_true]
  repeat' constructor
  all_goals first | rfl | omega

theorem targets_oddColumn (x y : Nat) : cubeDirections.map (target .oddColumn x y) =
    [((x : Int) + 1, (y : Int) + x % 2), ((x : Int) + 1, (y : Int) + x % 2 - 1), ((x : Int), (y : Int) - 1),
     ((x : Int) - 1, (y : Int) + x % 2 - 1), ((x : Int) - 1, (y : Int) + x % 2), ((x : Int), (y : Int) + 1)] := by
  simp only [cubeDirections, List.map_cons, List.map_nil, target, List.cons.injEq, Prod.mk.injEq, and_true]
  repeat' constructor
  all_goals first | rfl | omega

theorem targets_evenColumn (x y : Nat) : cubeDirections.map (target .evenColumn x y) =
    [((x : Int) + 1, (y : Int) + 1 - x % 2), ((x : Int) + 1, (y : Int) - x % 2), ((x : Int), (y : Int) - 1),
     ((x : Int) - 1, (y : Int) - x % 2), ((x : Int) - 1, (y : Int) + 1 - x % 2), ((x : Int), (y : Int) + 1)] := by
  simp only [cubeDirections, List.map_cons, List.map_nil, target, List.cons.injEq, Prod.mk.injEq, and_true]
  repeat' constructor
  all_goals first | rfl | omega

end Verif.Layouts.Hex
