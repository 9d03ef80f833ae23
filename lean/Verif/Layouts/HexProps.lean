import Verif.Layouts.HexLemmas
import Verif.Layouts.CartesianProps

/-! # Properties C08, C09 of hexagonal (and shifted Cartesian) layouts

`shifted_cartesian_layout` (shifted_cartesian_layout.hpp:137-193) inherits everything from the
hexagonal layout of the corresponding arrangement, so the theorems cover it as well. -/

namespace Verif.Layouts

open Hex

/-! ## C08 -/

/-- C08. The cube coordinate of an offset coordinate lies in the plane `x + y + z = 0`. -/
theorem C08_cube_sum_zero (a : Arr) (c : Coord) :
    (toCube a c).x + (toCube a c).y + (toCube a c).z = 0 := by
  cases a <;> simp only [toCube, Arr.pointy, Arr.off, if_true, Bool.false_eq_true, if_false] <;> omega

/-- C08. Offset → cube → offset is the identity on live ground-layer coordinates whose fields fit
into 31 bits. -/
theorem C08_offset_roundtrip (a : Arr) (c : Coord) (hx : c.x < 2^31) (hy : c.y < 2^31)
    (hz : c.z = 0) (hd : c.d = false) : toOffset a (toCube a c) = c := by
  have e : toOffset a (toCube a c) = move a c ⟨0, 0, 0⟩ := by
    simp only [move, CubeC.add, Int.add_zero, hz]
    cases a <;> rfl
  rw [e]
  obtain ⟨x, y, z, d⟩ := c
  simp only at *
  subst hz; subst hd
  cases a
  · rw [move_oddRow]; simp only [cast31, Coord.mk.injEq, and_true]; omega
  · rw [move_evenRow]; simp only [cast31, Coord.mk.injEq, and_true]; omega
  · rw [move_oddColumn]; simp only [cast31, Coord.mk.injEq, and_true]; omega
  · rw [move_evenColumn]; simp only [cast31, Coord.mk.injEq, and_true]; omega

example : toOffset .evenRow (toCube .evenRow ⟨5, 3, 0, false⟩) = ⟨5, 3, 0, false⟩ :=
  C08_offset_roundtrip _ _ (by decide) (by decide) rfl rfl

/-- C08. Different offset coordinates have different cube coordinates. -/
theorem C08_to_cube_injective (a : Arr) (c e : Coord) (h : toCube a c = toCube a e) :
    c.x = e.x ∧ c.y = e.y := by
  cases a <;> simp only [toCube, Arr.pointy, Arr.off, if_true, Bool.false_eq_true, if_false,
    CubeC.mk.injEq, bit0] at h
  · rw [half_neg, half_neg] at h; omega
  · rw [half_pos, half_pos] at h; omega
  · rw [half_neg, half_neg] at h; omega
  · rw [half_pos, half_pos] at h; omega

/-- C08. Cube → offset → cube is the identity on every point of the plane `x + y + z = 0` that is
the cube coordinate of some representable offset coordinate. -/
theorem C08_cube_roundtrip (a : Arr) (q : CubeC) (hq : q.x + q.y + q.z = 0)
    (h : ∃ ox oy : Int, 0 ≤ ox ∧ ox < 2^31 ∧ 0 ≤ oy ∧ oy < 2^31 ∧
      (match a with
        | .oddRow => oy = q.z ∧ ox = q.x + (q.z - q.z % 2) / 2
        | .evenRow => oy = q.z ∧ ox = q.x + (q.z + q.z % 2) / 2
        | .oddColumn => ox = q.x ∧ oy = q.z + (q.x - q.x % 2) / 2
        | .evenColumn => ox = q.x ∧ oy = q.z + (q.x + q.x % 2) / 2)) :
    toCube a (toOffset a q) = q := by
  obtain ⟨ox, oy, h1, h2, h3, h4, h5⟩ := h
  obtain ⟨qx, qy, qz⟩ := q
  cases a <;> simp only [toCube, toOffset, Arr.pointy, Arr.off, if_true, Bool.false_eq_true, if_false,
    CubeC.mk.injEq, bit0] at *
  · rw [half_neg, half_neg]; unfold cast31; omega
  · rw [half_pos, half_pos]; unfold cast31; omega
  · rw [half_neg, half_neg]; unfold cast31; omega
  · rw [half_pos, half_pos]; unfold cast31; omega

example : toCube .oddRow (toOffset .oddRow ⟨3, -8, 5⟩) = ⟨3, -8, 5⟩ :=
  C08_cube_roundtrip _ _ rfl ⟨5, 5, by decide, by decide, by decide, by decide, by decide⟩

/-! ## C09 -/

/-- Spec: the centre of a hexagon in doubled coordinates, read off the ASCII drawings in
hexagonal_layout.hpp:56-134 (odd/even rows are shifted to the right, odd/even columns downwards,
by half a tile). -/
def hexCentre : Arr → Coord → Int × Int
  | .oddRow, c => (2 * c.x + c.y % 2, c.y)
  | .evenRow, c => (2 * c.x + (1 - (c.y : Int) % 2), c.y)
  | .oddColumn, c => (c.x, 2 * c.y + c.x % 2)
  | .evenColumn, c => (c.x, 2 * c.y + (1 - (c.x : Int) % 2))

/-- Spec: two hexagons of the same layer share an edge: their centres are half a tile apart on both
axes, or one tile apart along the unshifted axis. -/
def HexNeighbors (a : Arr) (c e : Coord) : Prop :=
  let dx := ((hexCentre a c).1 - (hexCentre a e).1).natAbs
  let dy := ((hexCentre a c).2 - (hexCentre a e).2).natAbs
  c.z = e.z ∧ ((dx = 1 ∧ dy = 1) ∨ (if a.pointy then dx = 2 ∧ dy = 0 else dx = 0 ∧ dy = 2))

instance (a : Arr) (c e : Coord) : Decidable (HexNeighbors a c e) := by
  unfold HexNeighbors; infer_instance

private theorem mem_adj (a : Arr) (m : Dim) (hX : m.X < 2^31 - 1) (hY : m.Y < 2^31 - 1)
    (c e : Coord) (h : InBounds m c) :
    e ∈ adjacentCoordinates a m c ↔ InBounds m e ∧ e.z = c.z ∧ ∃ q ∈ cubeDirections,
      (e.x : Int) = (target a c.x c.y q).1 ∧ (e.y : Int) = (target a c.x c.y q).2 := by
  obtain ⟨hd, h1, h2, h3⟩ := h
  have key : ∀ q ∈ cubeDirections, -1 ≤ q.x ∧ q.x ≤ 1 ∧ -1 ≤ q.z ∧ q.z ≤ 1 ∧
      -1 ≤ q.x + q.z ∧ q.x + q.z ≤ 1 := by decide
  simp only [adjacentCoordinates, List.mem_filter, List.mem_map]
  constructor
  · rintro ⟨⟨q, hq, he⟩, hb⟩
    obtain ⟨k1, k2, k3, k4, k5, k6⟩ := (move_inBounds a m hX hY c e q h1 h2 h3 (key q hq)).1 ⟨he.symm, hb⟩
    exact ⟨⟨k1, k3, k4, by omega⟩, k2, q, hq, k5, k6⟩
  · rintro ⟨⟨k1, k2, k3, k4⟩, k5, q, hq, k6, k7⟩
    obtain ⟨l1, l2⟩ := (move_inBounds a m hX hY c e q h1 h2 h3 (key q hq)).2 ⟨k1, k5, k2, k3, k6, k7⟩
    exact ⟨⟨q, hq, l1.symm⟩, l2⟩

/-- C09. `adjacent_coordinates(c)` lists exactly the in-bounds hexagons sharing an edge with `c`. -/
theorem C09_adjacent_exact (a : Arr) (m : Dim) (hX : m.X < 2^31 - 1) (hY : m.Y < 2^31 - 1)
    (c e : Coord) (h : InBounds m c) :
    e ∈ adjacentCoordinates a m c ↔ InBounds m e ∧ HexNeighbors a c e := by
  rw [mem_adj a m hX hY c e h]
  refine and_congr_right (fun _ => ?_)
  have hex : (∃ q ∈ cubeDirections, (e.x : Int) = (target a c.x c.y q).1 ∧
      (e.y : Int) = (target a c.x c.y q).2) ↔
      ((e.x : Int), (e.y : Int)) ∈ cubeDirections.map (target a c.x c.y) := by
    rw [List.mem_map]
    constructor
    · rintro ⟨q, hq, k1, k2⟩; exact ⟨q, hq, by rw [k1, k2]⟩
    · rintro ⟨q, hq, k⟩; exact ⟨q, hq, by rw [k], by rw [k]⟩
  rw [hex]
  cases a
  · simp only [targets_oddRow, List.mem_cons, List.not_mem_nil, or_false, Prod.mk.injEq, HexNeighbors, hexCentre,
      Arr.pointy, if_true]; omega
  · simp only [targets_evenRow, List.mem_cons, List.not_mem_nil, or_false, Prod.mk.injEq, HexNeighbors, hexCentre,
      Arr.pointy, if_true]; omega
  · simp only [targets_oddColumn, List.mem_cons, List.not_mem_nil, or_false, Prod.mk.injEq, HexNeighbors, hexCentre,
      Arr.pointy, Bool.false_eq_true, if_false]; omega
  · simp only [targets_evenColumn, List.mem_cons, List.not_mem_nil, or_false, Prod.mk.injEq, HexNeighbors, hexCentre,
      Arr.pointy, Bool.false_eq_true, if_false]; omega

/-- C09. No neighbour is listed twice. -/
theorem C09_adjacent_nodup (a : Arr) (m : Dim) (hX : m.X < 2^31 - 1) (hY : m.Y < 2^31 - 1)
    (c : Coord) (h : InBounds m c) : (adjacentCoordinates a m c).Nodup := by
  obtain ⟨hd, h1, h2, h3⟩ := h
  have key : ∀ q ∈ cubeDirections, -1 ≤ q.x ∧ q.x ≤ 1 ∧ -1 ≤ q.z ∧ q.z ≤ 1 ∧
      -1 ≤ q.x + q.z ∧ q.x + q.z ≤ 1 ∧ q.x + q.y + q.z = 0 := by decide
  have nd : cubeDirections.Nodup := by decide
  simp only [adjacentCoordinates]
  rw [List.filter_map, List.Nodup, List.pairwise_map]
  refine (List.Pairwise.and_mem.1 (List.Pairwise.filter _ nd)).imp ?_
  rintro p q ⟨hp, hq, hpq⟩ heq
  rw [List.mem_filter] at hp hq
  apply hpq
  have k1 := key p hp.1
  have k2 := key q hq.1
  have e1 := (move_inBounds a m hX hY c (move a c p) p h1 h2 h3
    ⟨k1.1, k1.2.1, k1.2.2.1, k1.2.2.2.1, k1.2.2.2.2.1, k1.2.2.2.2.2.1⟩).1 ⟨rfl, hp.2⟩
  have e2 := (move_inBounds a m hX hY c (move a c q) q h1 h2 h3
    ⟨k2.1, k2.2.1, k2.2.2.1, k2.2.2.2.1, k2.2.2.2.2.1, k2.2.2.2.2.2.1⟩).1 ⟨rfl, hq.2⟩
  rw [heq] at e1
  obtain ⟨px, py, pz⟩ := p
  obtain ⟨qx, qy, qz⟩ := q
  simp only [CubeC.mk.injEq] at *
  cases a <;> simp only [target] at e1 e2 <;> omega

/-- C09. `is_adjacent_of` is the same relation; it is symmetric and irreflexive. -/
theorem C09_is_adjacent (a : Arr) (m : Dim) (hX : m.X < 2^31 - 1) (hY : m.Y < 2^31 - 1)
    (c e : Coord) (h : InBounds m c) (h' : InBounds m e) :
    (isAdjacentOf a m c e = true ↔ HexNeighbors a c e) ∧
    isAdjacentOf a m c e = isAdjacentOf a m e c ∧ isAdjacentOf a m c c = false := by
  have k : ∀ u v, InBounds m u → InBounds m v → (isAdjacentOf a m u v = true ↔ HexNeighbors a u v) := by
    intro u v hu hv
    have := C09_adjacent_exact a m hX hY u v hu
    simp only [isAdjacentOf, List.any_eq_true, beq_iff_eq, exists_eq_right]
    rw [this]; exact ⟨fun q => q.2, fun q => ⟨hv, q⟩⟩
  refine ⟨k c e h h', ?_, ?_⟩
  · rw [Bool.eq_iff_iff, k c e h h', k e c h' h]
    cases a <;> simp only [HexNeighbors, hexCentre, Arr.pointy, if_true, Bool.false_eq_true, if_false] <;> omega
  · rw [Bool.eq_false_iff, ne_eq, k c c h h]
    cases a <;> simp only [HexNeighbors, hexCentre, Arr.pointy, if_true, Bool.false_eq_true, if_false] <;> omega

/-- C09. Sharing an edge is cube distance one: the largest of the three cube coordinate differences
is one. -/
theorem C09_cube_distance_one (a : Arr) (c e : Coord) (hz : c.z = e.z) :
    HexNeighbors a c e ↔
      max (max ((toCube a c).x - (toCube a e).x).natAbs ((toCube a c).y - (toCube a e).y).natAbs)
        ((toCube a c).z - (toCube a e).z).natAbs = 1 := by
  cases a <;> simp only [HexNeighbors, hexCentre, toCube, Arr.pointy, Arr.off, if_true,
    Bool.false_eq_true, if_false, bit0]
  · rw [half_neg, half_neg]; omega
  · rw [half_pos, half_pos]; omega
  · rw [half_neg, half_neg]; omega
  · rw [half_pos, half_pos]; omega

/-- C09. A coordinate has at most six neighbours. -/
theorem C09_at_most_six (a : Arr) (m : Dim) (c : Coord) : (adjacentCoordinates a m c).length ≤ 6 := by
  simp only [adjacentCoordinates]
  refine Nat.le_trans (List.length_filter_le _ _) ?_
  simp [cubeDirections]

/-- C09. Away from the border a coordinate has exactly six neighbours. -/
theorem C09_interior_six (a : Arr) (m : Dim) (hX : m.X < 2^31 - 1) (hY : m.Y < 2^31 - 1)
    (c : Coord) (h : InBounds m c) (h1 : 0 < c.x) (h2 : c.x < m.X) (h3 : 0 < c.y) (h4 : c.y < m.Y) :
    (adjacentCoordinates a m c).length = 6 := by
  obtain ⟨hd, b1, b2, b3⟩ := h
  have : (cubeDirections.map (move a c)).filter (Cart.isWithinBounds m) = cubeDirections.map (move a c) := by
    rw [List.filter_eq_self]
    intro e he
    rw [List.mem_map] at he
    obtain ⟨q, hq, rfl⟩ := he
    have key : ∀ q ∈ cubeDirections, -1 ≤ q.x ∧ q.x ≤ 1 ∧ -1 ≤ q.z ∧ q.z ≤ 1 ∧
      -1 ≤ q.x + q.z ∧ q.x + q.z ≤ 1 := by decide
    have k := key q hq
    have t : 0 ≤ (target a c.x c.y q).1 ∧ (target a c.x c.y q).1 ≤ m.X ∧
        0 ≤ (target a c.x c.y q).2 ∧ (target a c.x c.y q).2 ≤ m.Y := by
      cases a <;> simp only [target] <;> omega
    rw [move_target]
    simp only [Cart.isWithinBounds, Bool.and_eq_true, decide_eq_true_eq]
    unfold cast31
    omega
  rw [adjacentCoordinates, this]; rfl

example : InBounds ⟨2, 2, 0⟩ ⟨1, 1, 0, false⟩ ∧
    (adjacentCoordinates .evenRow ⟨2, 2, 0⟩ ⟨1, 1, 0, false⟩).length = 6 ∧
    (adjacentCoordinates .evenRow ⟨2, 2, 0⟩ ⟨0, 0, 0, false⟩).length = 3 ∧
    adjacentCoordinates .oddColumn ⟨0, 1, 0⟩ ⟨0, 0, 0, false⟩ = [⟨0, 1, 0, false⟩] := by decide

/-- `e` is the in-bounds tile at the integer position `t` in the layer of `c`. -/
private def AtPos (m : Dim) (c e : Coord) (t : Int × Int) : Prop :=
  e.d = false ∧ e.z = c.z ∧ e.x ≤ m.X ∧ e.y ≤ m.Y ∧ (e.x : Int) = t.1 ∧ (e.y : Int) = t.2

private theorem keep_iff (a : Arr) (m : Dim) (hX : m.X < 2^31 - 1) (hY : m.Y < 2^31 - 1)
    (c e : Coord) (h : InBounds m c) (q : CubeC) (hq : q ∈ cubeDirections) :
    (e = keep m c (move a c q) ∧ e ≠ c) ↔ AtPos m c e (target a c.x c.y q) := by
  obtain ⟨hd, h1, h2, h3⟩ := h
  have key : ∀ q ∈ cubeDirections, -1 ≤ q.x ∧ q.x ≤ 1 ∧ -1 ≤ q.z ∧ q.z ≤ 1 ∧
      -1 ≤ q.x + q.z ∧ q.x + q.z ≤ 1 := by decide
  have ne : ∀ q ∈ cubeDirections, ¬(q.x = 0 ∧ q.z = 0) := by decide
  have mi := move_inBounds a m hX hY c e q h1 h2 h3 (key q hq)
  have nt : AtPos m c e (target a c.x c.y q) → e ≠ c := by
    rintro ⟨_, _, _, _, k5, k6⟩ rfl
    have := ne q hq
    cases a <;> simp only [target] at k5 k6 <;> omega
  rw [show AtPos m c e (target a c.x c.y q) ↔ _ from mi.symm] at nt ⊢
  unfold keep
  constructor
  · rintro ⟨k, kc⟩
    by_cases hb : Cart.isWithinBounds m (move a c q) = true
    · rw [if_pos hb] at k; exact ⟨k, k ▸ hb⟩
    · rw [if_neg hb] at k; exact absurd k kc
  · rintro ⟨k, hb⟩
    rw [if_pos (k ▸ hb)]; exact ⟨k, nt ⟨k, hb⟩⟩

private theorem straight_iff (a : Arr) (m : Dim) (c e : Coord) (h : InBounds m c) :
    (a.pointy = true → ((e = Cart.east m c ∧ e ≠ c) ↔ AtPos m c e ((c.x : Int) + 1, (c.y : Int)))) ∧
    (a.pointy = true → ((e = Cart.west c ∧ e ≠ c) ↔ AtPos m c e ((c.x : Int) - 1, (c.y : Int)))) ∧
    (a.pointy = false → ((e = Cart.north c ∧ e ≠ c) ↔ AtPos m c e ((c.x : Int), (c.y : Int) - 1))) ∧
    (a.pointy = false → ((e = Cart.south m c ∧ e ≠ c) ↔ AtPos m c e ((c.x : Int), (c.y : Int) + 1))) := by
  obtain ⟨hd, h1, h2, h3⟩ := h
  obtain ⟨x, y, z, d⟩ := c
  obtain ⟨x', y', z', d'⟩ := e
  simp only at hd h1 h2 h3
  subst hd
  refine ⟨fun _ => ?_, fun _ => ?_, fun _ => ?_, fun _ => ?_⟩ <;>
    simp only [Cart.east, Cart.west, Cart.north, Cart.south, AtPos] <;> grind

/-- Pairs of opposite directions in the order of the source. -/
private def oppTargets (a : Arr) (x y : Nat) : List ((Int × Int) × (Int × Int)) :=
  (if a.pointy then (((x : Int) + 1, (y : Int)), ((x : Int) - 1, (y : Int)))
    else (((x : Int), (y : Int) - 1), ((x : Int), (y : Int) + 1))) ::
  (target a x y ⟨1, 0, -1⟩, target a x y ⟨-1, 0, 1⟩) ::
  [if a.pointy then (target a x y ⟨0, 1, -1⟩, target a x y ⟨0, -1, 1⟩)
    else (target a x y ⟨-1, 1, 0⟩, target a x y ⟨1, -1, 0⟩)]

private theorem mem_opp (a : Arr) (m : Dim) (hX : m.X < 2^31 - 1) (hY : m.Y < 2^31 - 1)
    (c p q : Coord) (h : InBounds m c) :
    (p, q) ∈ adjacentOppositeCoordinates a m c ↔
      ∃ t ∈ oppTargets a c.x c.y, AtPos m c p t.1 ∧ AtPos m c q t.2 := by
  have kp := keep_iff a m hX hY c p h
  have kq := keep_iff a m hX hY c q h
  have sp := straight_iff a m c p h
  have sq := straight_iff a m c q h
  have d1 := kp ⟨1, 0, -1⟩ (by decide)
  have d2 := kq ⟨-1, 0, 1⟩ (by decide)
  have d3 := kp ⟨0, 1, -1⟩ (by decide)
  have d4 := kq ⟨0, -1, 1⟩ (by decide)
  have d5 := kp ⟨-1, 1, 0⟩ (by decide)
  have d6 := kq ⟨1, -1, 0⟩ (by decide)
  simp only [adjacentOppositeCoordinates, List.mem_filter, List.mem_cons, List.not_mem_nil, or_false,
    Bool.and_eq_true, bne_iff_ne, oppTargets, exists_eq_or_imp, exists_eq_left]
  cases hp : a.pointy
  · simp only [northEast, southWest, northWest, southEast, hp, Bool.false_eq_true, if_false,
      Prod.mk.injEq, ← d1, ← d2, ← d5, ← d6, ← sp.2.2.1 hp, ← sq.2.2.2 hp]
    grind
  · simp only [northEast, southWest, northWest, southEast, hp, if_true,
      Prod.mk.injEq, ← d1, ← d2, ← d3, ← d4, ← sp.1 hp, ← sq.2.1 hp]
    grind

/-- C09. Every listed opposite pair consists of two distinct in-bounds neighbours of `c` whose
centres are point-symmetric around the centre of `c`. -/
theorem C09_opposite_sound (a : Arr) (m : Dim) (hX : m.X < 2^31 - 1) (hY : m.Y < 2^31 - 1)
    (c p q : Coord) (h : InBounds m c) (hpq : (p, q) ∈ adjacentOppositeCoordinates a m c) :
    InBounds m p ∧ InBounds m q ∧ HexNeighbors a c p ∧ HexNeighbors a c q ∧
    (hexCentre a p).1 + (hexCentre a q).1 = 2 * (hexCentre a c).1 ∧
    (hexCentre a p).2 + (hexCentre a q).2 = 2 * (hexCentre a c).2 := by
  rw [mem_opp a m hX hY c p q h] at hpq
  obtain ⟨t, ht, ⟨p1, p2, p3, p4, p5, p6⟩, q1, q2, q3, q4, q5, q6⟩ := hpq
  obtain ⟨hd, h1, h2, h3⟩ := h
  refine ⟨⟨p1, p3, p4, by omega⟩, ⟨q1, q3, q4, by omega⟩, ?_⟩
  have t1 := targets_oddRow c.x c.y
  have t2 := targets_evenRow c.x c.y
  have t3 := targets_oddColumn c.x c.y
  have t4 := targets_evenColumn c.x c.y
  simp only [cubeDirections, List.map_cons, List.map_nil, List.cons.injEq] at t1 t2 t3 t4
  cases a <;>
    simp only [oppTargets, Arr.pointy, if_true, Bool.false_eq_true, if_false, t1, t2, t3, t4,
      List.mem_cons, List.not_mem_nil, or_false] at ht <;>
    rcases ht with rfl | rfl | rfl <;>
    simp only [HexNeighbors, hexCentre, Arr.pointy, if_true, Bool.false_eq_true, if_false] at * <;>
    refine ⟨?_, ?_, ?_, ?_⟩ <;> omega

set_option maxHeartbeats 1000000 in
/-- C09. Every pair of neighbours that is point-symmetric around `c` is listed, in one order or the
other. -/
theorem C09_opposite_complete (a : Arr) (m : Dim) (hX : m.X < 2^31 - 1) (hY : m.Y < 2^31 - 1)
    (c p q : Coord) (h : InBounds m c) (hp : InBounds m p) (hq : InBounds m q)
    (h1 : HexNeighbors a c p)
    (s1 : (hexCentre a p).1 + (hexCentre a q).1 = 2 * (hexCentre a c).1)
    (s2 : (hexCentre a p).2 + (hexCentre a q).2 = 2 * (hexCentre a c).2) (s3 : q.z = c.z) :
    (p, q) ∈ adjacentOppositeCoordinates a m c ∨ (q, p) ∈ adjacentOppositeCoordinates a m c := by
  rw [mem_opp a m hX hY c p q h, mem_opp a m hX hY c q p h]
  obtain ⟨-, pz, r, hr, r1, r2⟩ := (mem_adj a m hX hY c p h).1 ((C09_adjacent_exact a m hX hY c p h).2 ⟨hp, h1⟩)
  obtain ⟨hd, b1, b2, b3⟩ := h
  obtain ⟨pd, p1, p2, p3⟩ := hp
  obtain ⟨qd, q1, q2, q3⟩ := hq
  clear h1
  have hr' : target a c.x c.y r ∈ cubeDirections.map (target a c.x c.y) := List.mem_map_of_mem hr
  generalize target a c.x c.y r = t at *
  have t1 := targets_oddRow c.x c.y
  have t2 := targets_evenRow c.x c.y
  have t3 := targets_oddColumn c.x c.y
  have t4 := targets_evenColumn c.x c.y
  simp only [cubeDirections, List.map_cons, List.map_nil, List.cons.injEq] at t1 t2 t3 t4
  cases a
  case oddRow =>
    clear t2 t3 t4
    simp only [targets_oddRow, List.mem_cons, List.not_mem_nil, or_false] at hr'
    simp only [oppTargets, Arr.pointy, if_true, t1, List.mem_cons, List.not_mem_nil, or_false,
      exists_eq_or_imp, exists_eq_left, AtPos, pd, qd, p1, p2, q1, q2, s3, pz, true_and]
    simp only [hexCentre] at s1 s2
    clear t1
    rcases hr' with rfl | rfl | rfl | rfl | rfl | rfl <;> simp only at r1 r2 <;>
      rcases Nat.mod_two_eq_zero_or_one c.y with par | par <;>
      first
      | (refine Or.inl (Or.inl ?_); omega) | (refine Or.inl (Or.inr (Or.inl ?_)); omega)
      | (refine Or.inl (Or.inr (Or.inr ?_)); omega) | (refine Or.inr (Or.inl ?_); omega)
      | (refine Or.inr (Or.inr (Or.inl ?_)); omega) | (refine Or.inr (Or.inr (Or.inr ?_)); omega)
  case evenRow =>
    clear t1 t3 t4
    simp only [targets_evenRow, List.mem_cons, List.not_mem_nil, or_false] at hr'
    simp only [oppTargets, Arr.pointy, if_true, t2, List.mem_cons, List.not_mem_nil, or_false,
      exists_eq_or_imp, exists_eq_left, AtPos, pd, qd, p1, p2, q1, q2, s3, pz, true_and]
    simp only [hexCentre] at s1 s2
    clear t2
    rcases hr' with rfl | rfl | rfl | rfl | rfl | rfl <;> simp only at r1 r2 <;>
      rcases Nat.mod_two_eq_zero_or_one c.y with par | par <;>
      first
      | (refine Or.inl (Or.inl ?_); omega) | (refine Or.inl (Or.inr (Or.inl ?_)); omega)
      | (refine Or.inl (Or.inr (Or.inr ?_)); omega) | (refine Or.inr (Or.inl ?_); omega)
      | (refine Or.inr (Or.inr (Or.inl ?_)); omega) | (refine Or.inr (Or.inr (Or.inr ?_)); omega)
  case oddColumn =>
    clear t1 t2 t4
    simp only [targets_oddColumn, List.mem_cons, List.not_mem_nil, or_false] at hr'
    simp only [oppTargets, Arr.pointy, Bool.false_eq_true, if_false, t3, List.mem_cons, List.not_mem_nil, or_false,
      exists_eq_or_imp, exists_eq_left, AtPos, pd, qd, p1, p2, q1, q2, s3, pz, true_and]
    simp only [hexCentre] at s1 s2
    clear t3
    rcases hr' with rfl | rfl | rfl | rfl | rfl | rfl <;> simp only at r1 r2 <;>
      rcases Nat.mod_two_eq_zero_or_one c.x with par | par <;>
      first
      | (refine Or.inl (Or.inl ?_); omega) | (refine Or.inl (Or.inr (Or.inl ?_)); omega)
      | (refine Or.inl (Or.inr (Or.inr ?_)); omega) | (refine Or.inr (Or.inl ?_); omega)
      | (refine Or.inr (Or.inr (Or.inl ?_)); omega) | (refine Or.inr (Or.inr (Or.inr ?_)); omega)
  case evenColumn =>
    clear t1 t2 t3
    simp only [targets_evenColumn, List.mem_cons, List.not_mem_nil, or_false] at hr'
    simp only [oppTargets, Arr.pointy, Bool.false_eq_true, if_false, t4, List.mem_cons, List.not_mem_nil, or_false,
      exists_eq_or_imp, exists_eq_left, AtPos, pd, qd, p1, p2, q1, q2, s3, pz, true_and]
    simp only [hexCentre] at s1 s2
    clear t4
    rcases hr' with rfl | rfl | rfl | rfl | rfl | rfl <;> simp only at r1 r2 <;>
      rcases Nat.mod_two_eq_zero_or_one c.x with par | par <;>
      first
      | (refine Or.inl (Or.inl ?_); omega) | (refine Or.inl (Or.inr (Or.inl ?_)); omega)
      | (refine Or.inl (Or.inr (Or.inr ?_)); omega) | (refine Or.inr (Or.inl ?_); omega)
      | (refine Or.inr (Or.inr (Or.inl ?_)); omega) | (refine Or.inr (Or.inr (Or.inr ?_)); omega)

example : ((⟨2, 1, 0, false⟩ : Coord), (⟨0, 1, 0, false⟩ : Coord)) ∈
    adjacentOppositeCoordinates .evenRow ⟨2, 2, 0⟩ ⟨1, 1, 0, false⟩ :=
  by decide

end Verif.Layouts
