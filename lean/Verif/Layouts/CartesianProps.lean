import Verif.Layouts.Model

/-! # Properties C06, C07 of Cartesian layouts -/

namespace Verif.Layouts

/-- Spec: a live coordinate inside the layout. -/
def InBounds (m : Dim) (c : Coord) : Prop := c.d = false ∧ c.x ≤ m.X ∧ c.y ≤ m.Y ∧ c.z ≤ m.Z

instance (m : Dim) (c : Coord) : Decidable (InBounds m c) := by unfold InBounds; infer_instance

open Cart

/-! ## C06 -/

/-- C06. `is_within_bounds` says what it means (for live coordinates). -/
theorem C06_within_bounds (m : Dim) (c : Coord) (hd : c.d = false) :
    isWithinBounds m c = true ↔ InBounds m c := by
  simp [isWithinBounds, InBounds, hd, and_assoc]

/-- C06. North/south, east/west and above/below are mutually inverse away from the border. -/
theorem C06_inverse_moves (m : Dim) (c : Coord) (h : InBounds m c) :
    (0 < c.y → south m (north c) = c) ∧ (c.y < m.Y → north (south m c) = c) ∧
    (0 < c.x → east m (west c) = c) ∧ (c.x < m.X → west (east m c) = c) ∧
    (0 < c.z → above m (below c) = c) ∧ (c.z < m.Z → below (above m c) = c) ∧
    (0 < c.y → c.x < m.X → southWest m (northEast m c) = c) ∧
    (c.y < m.Y → c.x < m.X → northWest (southEast m c) = c) ∧
    (c.y < m.Y → 0 < c.x → northEast m (southWest m c) = c) ∧
    (0 < c.y → 0 < c.x → southEast m (northWest c) = c) := by
  obtain ⟨x, y, z, d⟩ := c
  simp only [InBounds] at h
  obtain ⟨rfl, h1, h2, h3⟩ := h
  simp only [north, south, east, west, above, below, northEast, northWest, southEast, southWest]
  refine ⟨?_, ?_, ?_, ?_, ?_, ?_, ?_, ?_, ?_, ?_⟩ <;> grind

/-- C06. A move that would leave the layout returns the coordinate itself. -/
theorem C06_border_moves (m : Dim) (c : Coord) (h : InBounds m c) :
    (north c = c ↔ isAtNorthernBorder c = true) ∧ (south m c = c ↔ isAtSouthernBorder m c = true) ∧
    (west c = c ↔ isAtWesternBorder c = true) ∧ (east m c = c ↔ isAtEasternBorder m c = true) ∧
    (above m c = c ↔ c.z = m.Z) ∧ (below c = c ↔ c.z = 0) ∧
    (northEast m c = c ↔ (isAtNorthernBorder c || isAtEasternBorder m c) = true) ∧
    (southEast m c = c ↔ (isAtSouthernBorder m c || isAtEasternBorder m c) = true) ∧
    (southWest m c = c ↔ (isAtSouthernBorder m c || isAtWesternBorder c) = true) ∧
    (northWest c = c ↔ (isAtNorthernBorder c || isAtWesternBorder c) = true) := by
  obtain ⟨x, y, z, d⟩ := c
  simp only [InBounds] at h
  simp only [north, south, east, west, above, below, northEast, northWest, southEast, southWest,
    isAtNorthernBorder, isAtSouthernBorder, isAtEasternBorder, isAtWesternBorder]
  refine ⟨?_, ?_, ?_, ?_, ?_, ?_, ?_, ?_, ?_, ?_⟩ <;> grind

/-- C06. All moves stay inside the layout. -/
theorem C06_moves_in_bounds (m : Dim) (c : Coord) (h : InBounds m c) :
    InBounds m (north c) ∧ InBounds m (south m c) ∧ InBounds m (east m c) ∧ InBounds m (west c) ∧
    InBounds m (above m c) ∧ InBounds m (below c) ∧ InBounds m (northEast m c) ∧
    InBounds m (southEast m c) ∧ InBounds m (southWest m c) ∧ InBounds m (northWest c) := by
  obtain ⟨x, y, z, d⟩ := c
  simp only [InBounds] at h
  simp only [north, south, east, west, above, below, northEast, northWest, southEast, southWest,
    InBounds]
  grind

/-- C06. The `is_…_of` predicates hold exactly for the coordinate one step away.
(`is_north_of(c1, c2)` asks whether `c2` is north of `c1`.) -/
theorem C06_direction_predicates (m : Dim) (c e : Coord) (h : InBounds m c) (h' : InBounds m e) :
    (isNorthOf c e = true ↔ e.x = c.x ∧ e.y + 1 = c.y ∧ e.z = c.z) ∧
    (isSouthOf m c e = true ↔ e.x = c.x ∧ e.y = c.y + 1 ∧ e.z = c.z) ∧
    (isEastOf m c e = true ↔ e.x = c.x + 1 ∧ e.y = c.y ∧ e.z = c.z) ∧
    (isWestOf c e = true ↔ e.x + 1 = c.x ∧ e.y = c.y ∧ e.z = c.z) ∧
    (isAbove m c e = true ↔ e.x = c.x ∧ e.y = c.y ∧ e.z = c.z + 1) ∧
    (isBelow c e = true ↔ e.x = c.x ∧ e.y = c.y ∧ e.z + 1 = c.z) := by
  obtain ⟨x, y, z, d⟩ := c
  obtain ⟨x', y', z', d'⟩ := e
  simp only [InBounds] at h h'
  simp only [isNorthOf, isSouthOf, isEastOf, isWestOf, isAbove, isBelow,
    north, south, east, west, above, below]
  refine ⟨?_, ?_, ?_, ?_, ?_, ?_⟩ <;> grind

/-- C06. The `is_…wards_of` predicates are the transitive closures: `c2` lies strictly in that
direction on the same row/column and layer. -/
theorem C06_wards (c e : Coord) :
    (isNorthwardsOf c e = true ↔ e.y < c.y ∧ e.x = c.x ∧ e.z = c.z) ∧
    (isSouthwardsOf c e = true ↔ c.y < e.y ∧ e.x = c.x ∧ e.z = c.z) ∧
    (isEastwardsOf c e = true ↔ c.x < e.x ∧ e.y = c.y ∧ e.z = c.z) ∧
    (isWestwardsOf c e = true ↔ e.x < c.x ∧ e.y = c.y ∧ e.z = c.z) := by
  simp only [isNorthwardsOf, isSouthwardsOf, isEastwardsOf, isWestwardsOf]
  grind

/-- C06. A coordinate outside the layout becomes dead when moved further out. -/
theorem C06_out_of_bounds_dead (m : Dim) (c : Coord) :
    (m.X < c.x → (east m c).d = true) ∧ (m.Y < c.y → (south m c).d = true) ∧
    (m.Z < c.z → (above m c).d = true) := by
  simp only [east, south, above]; grind

example : InBounds ⟨3, 2, 1⟩ ⟨3, 1, 1, false⟩ ∧
    south ⟨3, 2, 1⟩ (north ⟨3, 1, 1, false⟩) = ⟨3, 1, 1, false⟩ ∧
    east ⟨3, 2, 1⟩ ⟨3, 1, 1, false⟩ = ⟨3, 1, 1, false⟩ := by decide

/-! ## C07 -/

/-- Spec: same layer and Manhattan distance one. -/
def GridNeighbors (a b : Coord) : Prop :=
  a.z = b.z ∧ ((a.x : Int) - b.x).natAbs + ((a.y : Int) - b.y).natAbs = 1

instance (a b : Coord) : Decidable (GridNeighbors a b) := by unfold GridNeighbors; infer_instance

/-- C07. `is_adjacent_of` is the same relation and symmetric. -/
theorem C07_is_adjacent (m : Dim) (c e : Coord) (h : InBounds m c) (h' : InBounds m e) :
    (isAdjacentOf m c e = true ↔ GridNeighbors c e) ∧ isAdjacentOf m c e = isAdjacentOf m e c := by
  obtain ⟨n1, s1, e1, w1, _⟩ := C06_direction_predicates m c e h h'
  obtain ⟨n2, s2, e2, w2, _⟩ := C06_direction_predicates m e c h' h
  have key : ∀ a b : Coord, GridNeighbors a b ↔
      (b.x = a.x ∧ b.y + 1 = a.y ∧ b.z = a.z) ∨ (b.x = a.x + 1 ∧ b.y = a.y ∧ b.z = a.z) ∨
      (b.x = a.x ∧ b.y = a.y + 1 ∧ b.z = a.z) ∨ (b.x + 1 = a.x ∧ b.y = a.y ∧ b.z = a.z) := by
    intro a b; simp only [GridNeighbors]; omega
  have k1 : isAdjacentOf m c e = true ↔ GridNeighbors c e := by
    rw [key]; simp only [isAdjacentOf, Bool.or_eq_true, n1, s1, e1, w1, or_assoc]
  have k2 : isAdjacentOf m e c = true ↔ GridNeighbors e c := by
    rw [key]; simp only [isAdjacentOf, Bool.or_eq_true, n2, s2, e2, w2, or_assoc]
  refine ⟨k1, ?_⟩
  rw [Bool.eq_iff_iff, k1, k2]; simp only [GridNeighbors]; omega

/-- C07. `adjacent_coordinates(c)` lists exactly the in-bounds grid neighbours of `c`, without duplicates. -/
theorem C07_adjacent_exact (m : Dim) (c : Coord) (h : InBounds m c) :
    (∀ e, e ∈ adjacentCoordinates m c ↔ InBounds m e ∧ GridNeighbors c e) ∧
    (adjacentCoordinates m c).Nodup := by
  constructor
  · intro e
    have hm := C06_moves_in_bounds m c h
    have h1 : e ∈ adjacentCoordinates m c ↔ InBounds m e ∧ isAdjacentOf m c e = true := by
      simp only [adjacentCoordinates, isAdjacentOf, isNorthOf, isEastOf, isSouthOf, isWestOf,
        List.mem_filter, List.mem_cons, List.not_mem_nil, or_false]
      constructor
      · rintro ⟨rfl | rfl | rfl | rfl, h'⟩ <;> simp_all [bne_comm]
      · rintro ⟨_, h'⟩
        simp only [Bool.or_eq_true, Bool.and_eq_true, bne_iff_ne, beq_iff_eq] at h' ⊢
        grind
    rw [h1]
    constructor
    · rintro ⟨h2, h3⟩; exact ⟨h2, (C07_is_adjacent m c e h h2).1.1 h3⟩
    · rintro ⟨h2, h3⟩; exact ⟨h2, (C07_is_adjacent m c e h h2).1.2 h3⟩
  · obtain ⟨x, y, z, d⟩ := c
    simp only [InBounds] at h
    obtain ⟨rfl, h1, h2, h3⟩ := h
    simp only [adjacentCoordinates]
    simp only [north, south, east, west, List.filter_cons, List.filter_nil]
    grind

/-- C07. Adjacency across layers (`is_adjacent_elevation_of`): grid neighbours whose layers differ
by at most one. -/
theorem C07_adjacent_elevation (m : Dim) (c e : Coord) (h : InBounds m c) (h' : InBounds m e) :
    isAdjacentElevationOf m c e = true ↔
      (((c.x : Int) - e.x).natAbs + ((c.y : Int) - e.y).natAbs = 1 ∧
        ((c.z : Int) - e.z).natAbs ≤ 1) := by
  have hm := C06_moves_in_bounds m c h
  have a := (C07_is_adjacent m c e h h').1
  have b := (C07_is_adjacent m (above m c) e hm.2.2.2.2.1 h').1
  have b' := (C07_is_adjacent m (below c) e hm.2.2.2.2.2.1 h').1
  simp only [isAdjacentElevationOf, Bool.or_eq_true, a, b, b', GridNeighbors]
  obtain ⟨x, y, z, d⟩ := c
  obtain ⟨x', y', z', d'⟩ := e
  simp only [InBounds] at h h'
  simp only [above, below]
  grind

/-- C07. The opposite pairs are exactly the pairs (north, south) and (east, west) of neighbours
lying point-symmetrically around `c`. -/
theorem C07_opposite_exact (m : Dim) (c a b : Coord) (h : InBounds m c) :
    (a, b) ∈ adjacentOppositeCoordinates m c ↔
      InBounds m a ∧ InBounds m b ∧ GridNeighbors c a ∧ GridNeighbors c b ∧
      a.x + b.x = 2 * c.x ∧ a.y + b.y = 2 * c.y ∧ (a.y < c.y ∨ c.x < a.x) := by
  obtain ⟨x, y, z, d⟩ := c
  obtain ⟨ax, ay, az, ad⟩ := a
  obtain ⟨bx, byy, bz, bd⟩ := b
  simp only [InBounds] at h
  obtain ⟨rfl, h1, h2, h3⟩ := h
  simp only [adjacentOppositeCoordinates, List.mem_filter, List.mem_cons, List.not_mem_nil,
    or_false, north, south, east, west, InBounds, GridNeighbors, Prod.mk.injEq]
  constructor
  · rintro ⟨⟨h4, h5⟩ | ⟨h4, h5⟩, h6⟩
    · simp only [Bool.and_eq_true, bne_iff_ne] at h6
      split at h4 <;> split at h5 <;> try split at h5
      all_goals simp_all
      all_goals omega
    · simp only [Bool.and_eq_true, bne_iff_ne] at h6
      split at h4 <;> split at h5 <;> try split at h4
      all_goals simp_all
      all_goals omega
  · rintro ⟨⟨rfl, a1, a2, a3⟩, ⟨rfl, b1, b2, b3⟩, ⟨c1, c2⟩, ⟨d1, d2⟩, e1, e2, e3⟩
    subst c1
    rcases e3 with e3 | e3
    · have hy : ¬ y = 0 := by omega
      have hY : ¬ (y > m.Y) := by omega
      have hY' : y < m.Y := by omega
      simp only [hy, hY, hY', if_false, if_true, Bool.and_eq_true, bne_iff_ne, ne_eq, Coord.mk.injEq, and_true, true_and]
      omega
    · have hx : ¬ x = 0 := by omega
      have hX : ¬ (x > m.X) := by omega
      have hX' : x < m.X := by omega
      simp only [hx, hX, hX', if_false, if_true, Bool.and_eq_true, bne_iff_ne, ne_eq, Coord.mk.injEq, and_true, true_and]
      omega

example : InBounds ⟨1, 0, 0⟩ ⟨0, 0, 0, false⟩ ∧
    adjacentCoordinates ⟨1, 0, 0⟩ ⟨0, 0, 0, false⟩ = [⟨1, 0, 0, false⟩] ∧
    (adjacentCoordinates ⟨2, 2, 0⟩ ⟨1, 1, 0, false⟩).length = 4 ∧
    (adjacentOppositeCoordinates ⟨2, 2, 0⟩ ⟨1, 1, 0, false⟩).length = 2 := by decide

end Verif.Layouts
