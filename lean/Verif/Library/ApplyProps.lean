import Verif.Library.ApplyLemmas

/-!
# C59: applying a gate library

`relToAbs l X Y t (x, y)` is the position of the cell in column `x` and row `y` of the tile `t`, for gates of `X` columns and `Y` rows.
`applyLibrary l gl setUp name = some s` says that the library with `set_up_gate` function `setUp` applied to the layout `gl` yields
the cell-level layout `s`; `name n` is the name of the node `n`.
-/
namespace Verif.Library

open Verif.Layouts Verif.Clocking

theorem split_mul {X a b r q : Nat} (h1 : r < X) (h2 : q < X) (h : a * X + r = b * X + q) : a = b ∧ r = q := by
  have hX : 0 < X := by omega
  have e1 : (a * X + r) / X = a := by
    rw [Nat.add_comm, Nat.add_mul_div_right _ _ hX, Nat.div_eq_of_lt h1, Nat.zero_add]
  have e2 : (b * X + q) / X = b := by
    rw [Nat.add_comm, Nat.add_mul_div_right _ _ hX, Nat.div_eq_of_lt h2, Nat.zero_add]
  have : a = b := by rw [← e1, h, e2]
  subst this
  exact ⟨rfl, by omega⟩

theorem shiftX_congr {a : Hex.Arr} {X : Nat} {t t' : Coord} (h : t.y = t'.y) : shiftX a X t = shiftX a X t' := by
  unfold shiftX; rw [h]

theorem shiftY_congr {a : Hex.Arr} {X : Nat} {t t' : Coord} (h : t.x = t'.x) : shiftY a X t = shiftY a X t' := by
  unfold shiftY; rw [h]

theorem shift_or (a : Hex.Arr) (X Y : Nat) : (∀ t, shiftX a X t = 0) ∨ (∀ t, shiftY a Y t = 0) := by
  cases a
  · exact .inr fun _ => rfl
  · exact .inr fun _ => rfl
  · exact .inl fun _ => rfl
  · exact .inl fun _ => rfl

/-- C59: on Cartesian and shifted Cartesian layouts the cells of different tiles are different, as are the cells of one tile. -/
theorem C59_position_injective {l : Lay} (hl : ∀ a, l ≠ .hex a) {X Y : Nat} {t t' : Coord} {r r' : Nat × Nat}
    (h1 : r.1 < X) (h2 : r.2 < Y) (h1' : r'.1 < X) (h2' : r'.2 < Y)
    (h : relToAbs l X Y t r = relToAbs l X Y t' r') : t.x = t'.x ∧ t.y = t'.y ∧ t.z = t'.z ∧ r = r' := by
  obtain ⟨r1, r2⟩ := r
  obtain ⟨q1, q2⟩ := r'
  cases l with
  | hex a => exact absurd rfl (hl a)
  | cartesian =>
    simp only [relToAbs, Prod.mk.injEq] at h
    obtain ⟨e1, e2⟩ := split_mul h1 h1' h.1
    obtain ⟨e3, e4⟩ := split_mul h2 h2' h.2.1
    exact ⟨e1, e3, h.2.2, by simp only at e2 e4; rw [e2, e4]⟩
  | shifted a =>
    simp only [relToAbs, Prod.mk.injEq] at h
    obtain ⟨hx, hy, hz⟩ := h
    simp only at h1 h2 h1' h2'
    rcases shift_or a X Y with hs | hs
    · rw [hs, hs] at hx
      obtain ⟨e1, e2⟩ := split_mul h1 h1' (a := t.x) (b := t'.x) (by omega)
      rw [shiftY_congr e1] at hy
      obtain ⟨e3, e4⟩ := split_mul h2 h2' (a := t.y) (b := t'.y) (by omega)
      exact ⟨e1, e3, hz, by rw [e2, e4]⟩
    · rw [hs, hs] at hy
      obtain ⟨e3, e4⟩ := split_mul h2 h2' (a := t.y) (b := t'.y) (by omega)
      rw [shiftX_congr e3] at hx
      obtain ⟨e1, e2⟩ := split_mul h1 h1' (a := t.x) (b := t'.x) (by omega)
      exact ⟨e1, e3, hz, by rw [e2, e4]⟩

/-- C59: on hexagonal layouts with pointy tops the same holds for the cells in any `Y * 3 / 4` consecutive rows of the tiles, and on
those with flat tops for the cells in any `X * 3 / 4` consecutive columns. -/
theorem C59_position_injective_hex {a : Hex.Arr} {X Y lo : Nat} {t t' : Coord} {r r' : Nat × Nat}
    (h1 : r.1 < X) (h2 : r.2 < Y) (h1' : r'.1 < X) (h2' : r'.2 < Y)
    (hr : if a.pointy then lo ≤ r.2 ∧ r.2 < lo + Y * 3 / 4 else lo ≤ r.1 ∧ r.1 < lo + X * 3 / 4)
    (hr' : if a.pointy then lo ≤ r'.2 ∧ r'.2 < lo + Y * 3 / 4 else lo ≤ r'.1 ∧ r'.1 < lo + X * 3 / 4)
    (h : relToAbs (.hex a) X Y t r = relToAbs (.hex a) X Y t' r') :
    t.x = t'.x ∧ t.y = t'.y ∧ t.z = t'.z ∧ r = r' := by
  obtain ⟨r1, r2⟩ := r
  obtain ⟨q1, q2⟩ := r'
  simp only at h1 h2 h1' h2' hr hr'
  by_cases hp : a.pointy = true
  · have hs : ∀ t, shiftY a Y t = 0 := by intro t; cases a <;> simp [Hex.Arr.pointy] at hp <;> rfl
    simp only [relToAbs, hp, if_true, Prod.mk.injEq] at h hr hr'
    obtain ⟨hx, hy, hz⟩ := h
    rw [hs, hs] at hy
    obtain ⟨e3, e4⟩ := split_mul (X := Y * 3 / 4) (r := r2 - lo) (q := q2 - lo) (a := t.y) (b := t'.y) (by omega) (by omega) (by omega)
    rw [shiftX_congr e3] at hx
    obtain ⟨e1, e2⟩ := split_mul h1 h1' (a := t.x) (b := t'.x) (by omega)
    exact ⟨e1, e3, hz, by rw [e2, show r2 = q2 by omega]⟩
  · have hs : ∀ t, shiftX a X t = 0 := by intro t; cases a <;> simp [Hex.Arr.pointy] at hp <;> rfl
    simp only [relToAbs, hp, if_false, Prod.mk.injEq, Bool.false_eq_true] at h hr hr'
    obtain ⟨hx, hy, hz⟩ := h
    rw [hs, hs] at hx
    obtain ⟨e3, e4⟩ := split_mul (X := X * 3 / 4) (r := r1 - lo) (q := q1 - lo) (a := t.x) (b := t'.x) (by omega) (by omega) (by omega)
    rw [shiftY_congr e3] at hy
    obtain ⟨e1, e2⟩ := split_mul h2 h2' (a := t.y) (b := t'.y) (by omega)
    exact ⟨e3, e1, hz, by rw [e2, show r1 = q1 by omega]⟩

/-- C59 (limitation): on hexagonal layouts the bounding boxes of neighboring tiles overlap, so that the same cell belongs to two
tiles. A library for these layouts must leave the corners empty. -/
theorem C59_hex_overlap :
    relToAbs (.hex .evenRow) 60 46 ⟨0, 0, 0, false⟩ (10, 40) = relToAbs (.hex .evenRow) 60 46 ⟨0, 1, 0, false⟩ (40, 6) := by
  decide

/-- C59: all cells of all tiles of the gate-level layout lie in the cell-level layout. -/
theorem C59_in_bounds (l : Lay) {X Y : Nat} {m : Dim} {t : Coord} (ht : InBounds m t) {r : Nat × Nat} (h1 : r.1 < X) (h2 : r.2 < Y) :
    (relToAbs l X Y t r).1 ≤ (cellAspect l X Y m).1 ∧ (relToAbs l X Y t r).2.1 ≤ (cellAspect l X Y m).2.1 ∧
      (relToAbs l X Y t r).2.2 ≤ (cellAspect l X Y m).2.2 := by
  obtain ⟨-, hx, hy, hz⟩ := ht
  have a1 : ∀ k, t.x * k ≤ m.X * k := fun k => Nat.mul_le_mul_right k hx
  have a2 : ∀ k, t.y * k ≤ m.Y * k := fun k => Nat.mul_le_mul_right k hy
  have a3 := a1 X
  have a4 := a1 (X * 3 / 4)
  have a5 := a2 Y
  have a6 := a2 (Y * 3 / 4)
  have s1 : ∀ a, shiftX a X t ≤ max (shiftX a X ⟨m.X, 0, 0, false⟩) (shiftX a X ⟨m.X, if m.Y ≠ 0 then 1 else 0, 0, false⟩) := by
    intro a
    cases a <;> simp only [shiftX] <;> (try split_ifs) <;> omega
  have s2 : ∀ a, shiftY a Y t ≤ max (shiftY a Y ⟨0, m.Y, 0, false⟩) (shiftY a Y ⟨if m.X ≠ 0 then 1 else 0, m.Y, 0, false⟩) := by
    intro a
    cases a <;> simp only [shiftY] <;> (try split_ifs) <;> omega
  cases l with
  | cartesian => simp only [relToAbs, cellAspect]; omega
  | shifted a =>
    have := s1 a
    have := s2 a
    simp only [relToAbs, cellAspect]
    omega
  | hex a =>
    have := s1 a
    have := s2 a
    simp only [relToAbs, cellAspect]
    split_ifs at * <;> simp only at * <;> omega

/-- C59: the cell-level layout is no larger than needed: its last column, row and layer contain cells of tiles. -/
theorem C59_bounds_tight (l : Lay) {X Y : Nat} (m : Dim) (hX : 0 < X) (hY : 0 < Y) :
    (∃ t, InBounds m t ∧ ∃ r : Nat × Nat, r.1 < X ∧ r.2 < Y ∧ (relToAbs l X Y t r).1 = (cellAspect l X Y m).1) ∧
    (∃ t, InBounds m t ∧ ∃ r : Nat × Nat, r.1 < X ∧ r.2 < Y ∧ (relToAbs l X Y t r).2.1 = (cellAspect l X Y m).2.1) ∧
    (∃ t, InBounds m t ∧ ∃ r : Nat × Nat, r.1 < X ∧ r.2 < Y ∧ (relToAbs l X Y t r).2.2 = (cellAspect l X Y m).2.2) := by
  have hy : (if m.Y ≠ 0 then 1 else 0) ≤ m.Y := by split_ifs <;> omega
  have hx : (if m.X ≠ 0 then 1 else 0) ≤ m.X := by split_ifs <;> omega
  refine ⟨?_, ?_, ⟨⟨0, 0, m.Z, false⟩, ⟨rfl, Nat.zero_le _, Nat.zero_le _, Nat.le_refl _⟩, (0, 0), hX, hY, ?_⟩⟩
  · by_cases h : (relToAbs l X Y ⟨m.X, 0, 0, false⟩ (X - 1, Y - 1)).1 ≤
        (relToAbs l X Y ⟨m.X, if m.Y ≠ 0 then 1 else 0, 0, false⟩ (X - 1, Y - 1)).1
    · exact ⟨⟨m.X, if m.Y ≠ 0 then 1 else 0, 0, false⟩, ⟨rfl, Nat.le_refl _, hy, Nat.zero_le _⟩, (X - 1, Y - 1),
        Nat.sub_lt hX Nat.one_pos, Nat.sub_lt hY Nat.one_pos, (max_eq_right h).symm⟩
    · exact ⟨⟨m.X, 0, 0, false⟩, ⟨rfl, Nat.le_refl _, Nat.zero_le _, Nat.zero_le _⟩, (X - 1, Y - 1),
        Nat.sub_lt hX Nat.one_pos, Nat.sub_lt hY Nat.one_pos, (max_eq_left (Nat.le_of_not_le h)).symm⟩
  · by_cases h : (relToAbs l X Y ⟨0, m.Y, 0, false⟩ (X - 1, Y - 1)).2.1 ≤
        (relToAbs l X Y ⟨if m.X ≠ 0 then 1 else 0, m.Y, 0, false⟩ (X - 1, Y - 1)).2.1
    · exact ⟨⟨if m.X ≠ 0 then 1 else 0, m.Y, 0, false⟩, ⟨rfl, hx, Nat.le_refl _, Nat.zero_le _⟩, (X - 1, Y - 1),
        Nat.sub_lt hX Nat.one_pos, Nat.sub_lt hY Nat.one_pos, (max_eq_right h).symm⟩
    · exact ⟨⟨0, m.Y, 0, false⟩, ⟨rfl, Nat.zero_le _, Nat.le_refl _, Nat.zero_le _⟩, (X - 1, Y - 1),
        Nat.sub_lt hX Nat.one_pos, Nat.sub_lt hY Nat.one_pos, (max_eq_left (Nat.le_of_not_le h)).symm⟩
  · cases l <;> simp only [relToAbs, cellAspect]
    split_ifs <;> rfl

section
variable {X Y : Nat} {T : Cells.Tech}

/-- The nodes for which gates are placed. -/
theorem mem_placed {gl : GateLevel.State} {n : Nat} :
    n ∈ gl.allNodes.filter (fun n => !GateLevel.isConstant n) ↔ n ∈ gl.allNodes ∧ 2 ≤ n := by
  rw [List.mem_filter]
  simp only [GateLevel.isConstant, Bool.not_eq_true', decide_eq_false_iff_not]
  constructor
  · rintro ⟨h1, h2⟩; exact ⟨h1, by omega⟩
  · rintro ⟨h1, h2⟩; exact ⟨h1, by omega⟩

theorem placed_nodup (gl : GateLevel.State) : (gl.allNodes.filter (fun n => !GateLevel.isConstant n)).Nodup :=
  (List.nodup_range.filter _).filter _

/-- Different nodes that have gates are on different tiles. -/
theorem tile_inj {m : Dim} {ops : List GateLevel.Op} (hv : GateLevel.Valid m GateLevel.init ops)
    {setUp : Coord → Option (Gate X Y T.CellType)} (hd : ∀ t, t.d = true → setUp t = none) {n n' : Nat} (h2 : 2 ≤ n) (h2' : 2 ≤ n')
    {g g' : Gate X Y T.CellType} (hg : setUp ((GateLevel.run m GateLevel.init ops).getTile n) = some g)
    (hg' : setUp ((GateLevel.run m GateLevel.init ops).getTile n') = some g')
    (hx : ((GateLevel.run m GateLevel.init ops).getTile n).x = ((GateLevel.run m GateLevel.init ops).getTile n').x)
    (hy : ((GateLevel.run m GateLevel.init ops).getTile n).y = ((GateLevel.run m GateLevel.init ops).getTile n').y)
    (hz : ((GateLevel.run m GateLevel.init ops).getTile n).z = ((GateLevel.run m GateLevel.init ops).getTile n').z) : n = n' := by
  have h1 := (GateLevel.C16_bijection m ops hv).1
  generalize GateLevel.run m GateLevel.init ops = gl at *
  have d1 : (gl.getTile n).d = false := by
    by_contra hh
    rw [hd _ (by simpa using hh)] at hg
    exact absurd hg (by simp)
  have d2 : (gl.getTile n').d = false := by
    by_contra hh
    rw [hd _ (by simpa using hh)] at hg'
    exact absurd hg' (by simp)
  have e1 := (h1 _ n d1 h2).2 rfl
  have e2 := (h1 _ n' d2 h2').2 rfl
  have : gl.getTile n = gl.getTile n' := by
    cases a : gl.getTile n
    cases b : gl.getTile n'
    rw [a] at hx hy hz d1
    rw [b] at hx hy hz d2
    simp only at hx hy hz d1 d2
    rw [hx, hy, hz, d1, d2]
  rw [← e1, ← e2, this]

theorem items_nodup (c : CellPos) (g : Gate X Y T.CellType) (name : String) : ((items c g name).map Item.pos).Nodup := by
  unfold items
  rw [List.map_flatMap, List.nodup_flatMap]
  refine ⟨?_, ?_⟩
  · intro y _
    rw [List.map_map]
    refine (List.nodup_finRange X).map ?_
    intro a b hab
    simp only [Function.comp, Prod.mk.injEq] at hab
    exact Fin.ext (by omega)
  · refine (List.nodup_finRange Y).pairwise_of_forall_ne ?_
    intro a _ b _ hab
    simp only [Function.onFun, List.Disjoint]
    intro p hp hq
    simp only [List.map_map, List.mem_map, Function.comp] at hp hq
    obtain ⟨x, -, rfl⟩ := hp
    obtain ⟨x', -, e⟩ := hq
    simp only [Prod.mk.injEq] at e
    exact hab (Fin.ext (by omega))

theorem allItems_nodup {m : Dim} {ops : List GateLevel.Op} (hv : GateLevel.Valid m GateLevel.init ops) {l : Lay}
    (hl : ∀ a, l ≠ .hex a) {setUp : Coord → Option (Gate X Y T.CellType)} (hd : ∀ t, t.d = true → setUp t = none)
    (name : Nat → String) {nodes : List Nat} (hn : nodes.Nodup) (h2 : ∀ n ∈ nodes, 2 ≤ n) :
    ((allItems l (GateLevel.run m GateLevel.init ops) setUp name nodes).map Item.pos).Nodup := by
  unfold allItems
  rw [List.map_flatMap, List.nodup_flatMap]
  refine ⟨?_, ?_⟩
  · intro n _
    cases e : setUp ((GateLevel.run m GateLevel.init ops).getTile n) with
    | none => simp
    | some g => exact items_nodup _ _ _
  · refine hn.pairwise_of_forall_ne ?_
    intro n hn n' hn' hne
    simp only [Function.onFun, List.Disjoint]
    intro p hp hq
    cases e : setUp ((GateLevel.run m GateLevel.init ops).getTile n) with
    | none => simp [e] at hp
    | some g =>
      cases e' : setUp ((GateLevel.run m GateLevel.init ops).getTile n') with
      | none => simp [e'] at hq
      | some g' =>
        simp only [e, Option.map_some, Option.getD_some, List.mem_map, mem_items] at hp
        simp only [e', Option.map_some, Option.getD_some, List.mem_map, mem_items] at hq
        obtain ⟨i, ⟨y, x, rfl⟩, rfl⟩ := hp
        obtain ⟨i', ⟨y', x', rfl⟩, e2⟩ := hq
        have e3 : relToAbs l X Y ((GateLevel.run m GateLevel.init ops).getTile n) (x.val, y.val) =
            relToAbs l X Y ((GateLevel.run m GateLevel.init ops).getTile n') (x'.val, y'.val) := e2.symm
        obtain ⟨hx, hy, hz, -⟩ := C59_position_injective hl x.isLt y.isLt x'.isLt y'.isLt e3
        exact hne (tile_inj hv hd (h2 n hn) (h2 n' hn') e e' hx hy hz)

theorem free_of_nodup {l : List (Item T)} (h : (l.map Item.pos).Nodup) : Free l :=
  fun _ hi _ hj _ _ e => List.inj_on_of_nodup_map h hi hj e

/-- What is left to prove once no two cells are placed at the same position. -/
theorem apply_of_free (hT : T.Lawful) {gl : GateLevel.State} {l : Lay} {setUp : Coord → Option (Gate X Y T.CellType)}
    {name : Nat → String} {s : Cells.State CellPos T} (h : applyLibrary l gl setUp name = some s)
    (hf : Free (allItems l gl setUp name (gl.allNodes.filter (fun n => !GateLevel.isConstant n)))) :
    (∀ n ∈ gl.allNodes, 2 ≤ n → ∃ g, setUp (gl.getTile n) = some g ∧ ∀ (x : Fin X) (y : Fin Y), T.isEmpty (g y x) = false →
      s.getCellType (relToAbs l X Y (gl.getTile n) (x.val, y.val)) = g y x ∧
        ((T.isInput (g y x) || T.isOutput (g y x)) = true →
          s.getCellName (relToAbs l X Y (gl.getTile n) (x.val, y.val)) = name n)) ∧
    (∀ p, s.getCellType p ≠ T.empty → ∃ n ∈ gl.allNodes, 2 ≤ n ∧ ∃ g, setUp (gl.getTile n) = some g ∧ ∃ (x : Fin X) (y : Fin Y),
      p = relToAbs l X Y (gl.getTile n) (x.val, y.val) ∧ T.isEmpty (g y x) = false) ∧
    (∀ p, s.getCellName p ≠ "" → ∃ n ∈ gl.allNodes, 2 ≤ n ∧ ∃ g, setUp (gl.getTile n) = some g ∧ ∃ (x : Fin X) (y : Fin Y),
      p = relToAbs l X Y (gl.getTile n) (x.val, y.val) ∧ (T.isInput (g y x) || T.isOutput (g y x)) = true) ∧
    (∀ p, s.getCellMode p = T.normalMode) := by
  obtain ⟨h1, rfl⟩ := foldlM_eq l gl setUp name _ _ _ h
  refine ⟨?_, ?_, ?_, ?_⟩
  · intro n hn h2
    obtain ⟨g, hg⟩ := h1 n (mem_placed.2 ⟨hn, h2⟩)
    refine ⟨g, hg, fun x y he => ⟨?_, fun hio => ?_⟩⟩
    · exact fold_type hT _ hf (i := ⟨relToAbs l X Y (gl.getTile n) (x.val, y.val), g y x, name n⟩)
        (mem_allItems.2 ⟨n, mem_placed.2 ⟨hn, h2⟩, g, hg, y, x, rfl⟩) he
    · exact fold_name hT _ hf (i := ⟨relToAbs l X Y (gl.getTile n) (x.val, y.val), g y x, name n⟩)
        (mem_allItems.2 ⟨n, mem_placed.2 ⟨hn, h2⟩, g, hg, y, x, rfl⟩) hio
  · intro p hp
    by_contra hc
    apply hp
    rw [fold_type_none hT]
    · rfl
    · intro i hi he e
      obtain ⟨n, hn, g, hg, y, x, rfl⟩ := mem_allItems.1 hi
      exact hc ⟨n, (mem_placed.1 hn).1, (mem_placed.1 hn).2, g, hg, x, y, e.symm, he⟩
  · intro p hp
    by_contra hc
    apply hp
    rw [fold_name_none]
    · rfl
    · intro i hi he e
      obtain ⟨n, hn, g, hg, y, x, rfl⟩ := mem_allItems.1 hi
      exact hc ⟨n, (mem_placed.1 hn).1, (mem_placed.1 hn).2, g, hg, x, y, e.symm, he⟩
  · intro p
    rw [fold_mode hT]
    rfl

/-- C59: on Cartesian and shifted Cartesian layouts, each tile of the result contains exactly the cells of the gate of its node, and
input and output cells carry the name of the node. There are no other cells and no other names, and all cells have normal mode.
`hd`: `set_up_gate` throws for nodes that are not on a tile. -/
theorem C59_cells (hT : T.Lawful) {m : Dim} {ops : List GateLevel.Op} (hv : GateLevel.Valid m GateLevel.init ops) {l : Lay}
    (hl : ∀ a, l ≠ .hex a) {setUp : Coord → Option (Gate X Y T.CellType)} (hd : ∀ t, t.d = true → setUp t = none)
    {name : Nat → String} {s : Cells.State CellPos T}
    (h : applyLibrary l (GateLevel.run m GateLevel.init ops) setUp name = some s) :
    let gl := GateLevel.run m GateLevel.init ops
    (∀ n ∈ gl.allNodes, 2 ≤ n → ∃ g, setUp (gl.getTile n) = some g ∧ ∀ (x : Fin X) (y : Fin Y),
      s.getCellType (relToAbs l X Y (gl.getTile n) (x.val, y.val)) = g y x ∧
        s.getCellName (relToAbs l X Y (gl.getTile n) (x.val, y.val)) =
          if T.isInput (g y x) || T.isOutput (g y x) then name n else "") ∧
    (∀ p, (∀ n ∈ gl.allNodes, 2 ≤ n → ∀ (x : Fin X) (y : Fin Y), p ≠ relToAbs l X Y (gl.getTile n) (x.val, y.val)) →
      s.getCellType p = T.empty ∧ s.getCellName p = "") ∧
    (∀ p, s.getCellMode p = T.normalMode) := by
  intro gl
  have hf := free_of_nodup (allItems_nodup hv hl hd name (placed_nodup gl) (fun n hn => (mem_placed.1 hn).2))
  obtain ⟨h1, h2, h3, h4⟩ := apply_of_free hT h hf
  have uniq : ∀ n ∈ gl.allNodes, 2 ≤ n → ∀ g, setUp (gl.getTile n) = some g → ∀ (x : Fin X) (y : Fin Y),
      ∀ n' ∈ gl.allNodes, 2 ≤ n' → ∀ g', setUp (gl.getTile n') = some g' → ∀ (x' : Fin X) (y' : Fin Y),
      relToAbs l X Y (gl.getTile n) (x.val, y.val) = relToAbs l X Y (gl.getTile n') (x'.val, y'.val) → g y x = g' y' x' := by
    intro n _ hn2 g hg x y n' _ hn2' g' hg' x' y' e
    obtain ⟨ex, ey, ez, er⟩ := C59_position_injective hl x.isLt y.isLt x'.isLt y'.isLt e
    have : n = n' := tile_inj hv hd hn2 hn2' hg hg' ex ey ez
    subst this
    rw [hg, Option.some.injEq] at hg'
    simp only [Prod.mk.injEq] at er
    rw [hg', Fin.ext er.1, Fin.ext er.2]
  refine ⟨?_, ?_, h4⟩
  · intro n hn hn2
    obtain ⟨g, hg, hh⟩ := h1 n hn hn2
    refine ⟨g, hg, fun x y => ⟨?_, ?_⟩⟩
    · by_cases he : T.isEmpty (g y x) = false
      · exact (hh x y he).1
      · have he0 : g y x = T.empty := (hT.empty_iff _).1 (by simpa using he)
        rw [he0]
        by_contra hc
        obtain ⟨n', hn', hn2', g', hg', x', y', e, he'⟩ := h2 _ hc
        rw [uniq n hn hn2 g hg x y n' hn' hn2' g' hg' x' y' e, he'] at he
        exact he rfl
    · split_ifs with hio
      · exact (hh x y (io_full hT hio)).2 hio
      · by_contra hc
        obtain ⟨n', hn', hn2', g', hg', x', y', e, he'⟩ := h3 _ hc
        rw [uniq n hn hn2 g hg x y n' hn' hn2' g' hg' x' y' e, he'] at hio
        exact hio rfl
  · intro p hp
    constructor
    · by_contra hc
      obtain ⟨n', hn', hn2', g', hg', x', y', e, he'⟩ := h2 _ hc
      exact hp n' hn' hn2' x' y' e
    · by_contra hc
      obtain ⟨n', hn', hn2', g', hg', x', y', e, he'⟩ := h3 _ hc
      exact hp n' hn' hn2' x' y' e

/-- C59: on hexagonal layouts with pointy tops, the result contains exactly the cells of the gates of the nodes, provided that the
library uses at most `Y * 3 / 4` consecutive rows of its tiles. -/
theorem C59_cells_hex (hT : T.Lawful) {m : Dim} {ops : List GateLevel.Op} (hv : GateLevel.Valid m GateLevel.init ops) {a : Hex.Arr}
    (ha : a.pointy = true) {setUp : Coord → Option (Gate X Y T.CellType)} (hd : ∀ t, t.d = true → setUp t = none) {lo : Nat}
    (hr : ∀ t g, setUp t = some g → ∀ (x : Fin X) (y : Fin Y), T.isEmpty (g y x) = false → lo ≤ y.val ∧ y.val < lo + Y * 3 / 4)
    {name : Nat → String} {s : Cells.State CellPos T}
    (h : applyLibrary (.hex a) (GateLevel.run m GateLevel.init ops) setUp name = some s) :
    let gl := GateLevel.run m GateLevel.init ops
    (∀ n ∈ gl.allNodes, 2 ≤ n → ∃ g, setUp (gl.getTile n) = some g ∧ ∀ (x : Fin X) (y : Fin Y), T.isEmpty (g y x) = false →
      s.getCellType (relToAbs (.hex a) X Y (gl.getTile n) (x.val, y.val)) = g y x ∧
        ((T.isInput (g y x) || T.isOutput (g y x)) = true →
          s.getCellName (relToAbs (.hex a) X Y (gl.getTile n) (x.val, y.val)) = name n)) ∧
    (∀ p, s.getCellType p ≠ T.empty → ∃ n ∈ gl.allNodes, 2 ≤ n ∧ ∃ g, setUp (gl.getTile n) = some g ∧ ∃ (x : Fin X) (y : Fin Y),
      p = relToAbs (.hex a) X Y (gl.getTile n) (x.val, y.val) ∧ T.isEmpty (g y x) = false) := by
  intro gl
  have hf : Free (allItems (.hex a) gl setUp name (gl.allNodes.filter (fun n => !GateLevel.isConstant n))) := by
    intro i hi j hj hei hej e
    obtain ⟨n, hn, g, hg, y, x, rfl⟩ := mem_allItems.1 hi
    obtain ⟨n', hn', g', hg', y', x', rfl⟩ := mem_allItems.1 hj
    obtain ⟨ex, ey, ez, er⟩ := C59_position_injective_hex (lo := lo) x.isLt y.isLt x'.isLt y'.isLt
      (by rw [if_pos ha]; exact hr _ _ hg x y hei) (by rw [if_pos ha]; exact hr _ _ hg' x' y' hej) e
    have : n = n' := tile_inj hv hd (mem_placed.1 hn).2 (mem_placed.1 hn').2 hg hg' ex ey ez
    subst this
    rw [hg, Option.some.injEq] at hg'
    simp only [Prod.mk.injEq] at er
    rw [hg', Fin.ext er.1, Fin.ext er.2]
  obtain ⟨h1, h2, -, -⟩ := apply_of_free hT h hf
  exact ⟨h1, h2⟩

end

namespace Bestagon

/-- C59: applying the Bestagon library to a pointy-top hexagonal layout gives a layout with exactly the dots of the gates of the tiles, each at its place in its tile:
no two tiles share a dot, and no dot is lost although the tiles overlap. -/
theorem C59_bestagon {a : Hex.Arr} (ha : a.pointy = true) {m : Dim} {ops : List GateLevel.Op} (hv : GateLevel.Valid m GateLevel.init ops) {tile : Coord → Tile}
    {name : Nat → String} {s : Cells.State CellPos Cells.sidb}
    (h : apply a (GateLevel.run m GateLevel.init ops) tile name = some s) (p : CellPos) :
    let gl := GateLevel.run m GateLevel.init ops
    (s.getCellType p = .normal ↔ ∃ n ∈ gl.allNodes, 2 ≤ n ∧ ∃ g, setUp (tile (gl.getTile n)) = .gate g ∧
      ∃ q ∈ g, p = relToAbs (.hex a) 60 46 (gl.getTile n) q) ∧
    (s.getCellType p = .normal ∨ s.getCellType p = .empty) := by
  intro gl
  have hgate : ∀ t g, setUpAt tile t = some g → ∃ d, setUp (tile t) = .gate d ∧ g = dotsGate d := by
    intro t g hg
    unfold setUpAt at hg
    split_ifs at hg
    cases hs : setUp (tile t) with
    | gate d => rw [hs] at hg; exact ⟨d, rfl, (Option.some.inj hg).symm⟩
    | unsupportedOrientation => rw [hs] at hg; simp at hg
    | unsupportedType => rw [hs] at hg; simp at hg
  obtain ⟨h1, h2⟩ := C59_cells_hex (X := 60) (Y := 46) Cells.sidb_lawful hv ha (setUp := setUpAt tile)
    (by intro t ht; simp [setUpAt, ht]) (lo := 6) (by
      intro t g hg x y he
      obtain ⟨d, hd, rfl⟩ := hgate t g hg
      by_cases hq : (x.val, y.val) ∈ d
      · have := C58_bestagon_region hd hq
        omega
      · simp [dotsGate, hq] at he) h
  have hin : (∃ n ∈ gl.allNodes, 2 ≤ n ∧ ∃ g, setUp (tile (gl.getTile n)) = .gate g ∧
      ∃ q ∈ g, p = relToAbs (.hex a) 60 46 (gl.getTile n) q) → s.getCellType p = .normal := by
    rintro ⟨n, hn, hn2, d, hd, q, hq, rfl⟩
    obtain ⟨g, hg, hc⟩ := h1 n hn hn2
    obtain ⟨d', hd', rfl⟩ := hgate _ _ hg
    rw [hd, Outcome.gate.injEq] at hd'
    subst hd'
    have hb := C58_bestagon_region hd hq
    have := (hc ⟨q.1, by omega⟩ ⟨q.2, by omega⟩ (by simp [dotsGate, hq])).1
    simpa [dotsGate, hq] using this
  have hout : s.getCellType p ≠ .empty → ∃ n ∈ gl.allNodes, 2 ≤ n ∧ ∃ g, setUp (tile (gl.getTile n)) = .gate g ∧
      ∃ q ∈ g, p = relToAbs (.hex a) 60 46 (gl.getTile n) q := by
    intro hc
    obtain ⟨n, hn, hn2, g, hg, x, y, e, he⟩ := h2 p hc
    obtain ⟨d, hd, rfl⟩ := hgate _ _ hg
    by_cases hq : (x.val, y.val) ∈ d
    · exact ⟨n, hn, hn2, d, hd, _, hq, e⟩
    · simp [dotsGate, hq] at he
  refine ⟨⟨fun e => hout (by rw [e]; decide), hin⟩, ?_⟩
  by_cases hc : s.getCellType p = .empty
  · exact .inr hc
  · exact .inl (hin (hout hc))

/-- Two wires below each other: the last dots of the upper one are in the rows of the lower tile, and nothing is lost. -/
example : let ops : List GateLevel.Op := [.createPi ⟨0, 0, 0, false⟩, .createGate 2 [⟨0, 0, 0, false⟩] ⟨0, 1, 0, false⟩]
    GateLevel.Valid ⟨1, 1, 0⟩ GateLevel.init ops ∧
    (apply .evenRow (GateLevel.run ⟨1, 1, 0⟩ GateLevel.init ops)
      (fun _ => ⟨⟨2, false, true, false, false, true, false, false⟩, 1, true, none⟩) (fun _ => "")).any (fun s =>
        s.types.length = 2 * mirroredDiagonalWire.length ∨ s.types.length = 2 * diagonalWire.length) = true :=
  ⟨⟨trivial, trivial, trivial⟩, by decide +kernel⟩

end Bestagon

end Verif.Library
