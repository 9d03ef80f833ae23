import Verif.Library.ApplyProps
import Verif.GateLevel.ConstFn

/-!
# C59: QCA ONE circuits are connected

`applyLibrary .cartesian gl (setUpAt m cs gl) name = some s` says that `s` contains the cells of the gates of the layout `gl`, before
the post-layout optimization; `postLayout d s` is the layout after it, `d` being its last column, row and layer.
-/
namespace Verif.Library.QcaOne

open Verif.Layouts Verif.Clocking Verif.Cells

/-! ## Post-layout optimization -/

/-- A cell of a crossing layer that ends a wire: it has at most one neighbor in its layer. -/
def wireEnd (d : CellPos) (s : Cells.State CellPos qca) (c : CellPos) : Prop :=
  0 < c.2.2 ∧ s.getCellType c ≠ .empty ∧ ((adjacentCells d c).filter (fun a => s.getCellType a ≠ .empty)).length ≤ 1

instance (d : CellPos) (s : Cells.State CellPos qca) (c : CellPos) : Decidable (wireEnd d s c) := by
  unfold wireEnd; infer_instance

theorem isEmptyCell_eq (s : Cells.State CellPos qca) (c : CellPos) : s.isEmptyCell c = decide (s.getCellType c = .empty) := rfl

theorem viaStep_eq (d : CellPos) (s : Cells.State CellPos qca) (c : CellPos) :
    viaStep d s c = if wireEnd d s c then
      ((s.assignCellMode c .vertical).assignCellType (c.1, c.2.1, 0) .normal).assignCellMode (c.1, c.2.1, 0) .vertical else s := by
  unfold viaStep wireEnd
  simp only [isEmptyCell_eq, gt_iff_lt]
  by_cases h1 : 0 < c.2.2
  · by_cases h2 : s.getCellType c = QcaType.empty
    · simp [h2]
    · simp only [h1, h2, if_true, decide_false, Bool.false_eq_true, if_false, true_and, ne_eq, not_false_eq_true, decide_not]
      rfl
  · simp [h1]

theorem viaStep_type (d : CellPos) (s : Cells.State CellPos qca) (c p : CellPos) :
    (viaStep d s c).getCellType p = if wireEnd d s c ∧ p = (c.1, c.2.1, 0) then .normal else s.getCellType p := by
  rw [viaStep_eq]
  by_cases h : wireEnd d s c
  · rw [if_pos h, Cells.getCellType_assignMode, Cells.getCellType_assign Cells.qca_lawful, Cells.getCellType_assignMode]
    simp only [h, true_and]
  · rw [if_neg h, if_neg (fun hh => h hh.1)]

theorem viaStep_mode (d : CellPos) (s : Cells.State CellPos qca) (c p : CellPos) :
    (viaStep d s c).getCellMode p =
      if wireEnd d s c ∧ (p = (c.1, c.2.1, 0) ∨ p = c) then .vertical else s.getCellMode p := by
  rw [viaStep_eq]
  by_cases h : wireEnd d s c
  · rw [if_pos h, Cells.getCellMode_assignMode Cells.qca_lawful, Cells.getCellMode_assignType,
      Cells.getCellMode_assignMode Cells.qca_lawful]
    simp only [h, true_and]
    have : ¬(p = (c.1, c.2.1, 0) ∧ Cells.qca.isEmpty QcaType.normal = true) := fun hh => absurd hh.2 (by decide)
    rw [if_neg this]
    by_cases h1 : p = (c.1, c.2.1, 0)
    · rw [if_pos h1, if_pos (.inl h1)]
    · rw [if_neg h1]
      exact if_congr ⟨.inr, fun hh => hh.resolve_left h1⟩ rfl rfl
  · rw [if_neg h, if_neg (fun hh => h hh.1)]

/-- Neighbors of a cell are in its layer. -/
theorem adjacent_layer {d c e : CellPos} (h : e ∈ adjacentCells d c) : e.2.2 = c.2.2 := by
  simp only [adjacentCells, List.mem_filter, List.mem_cons, List.not_mem_nil, or_false] at h
  rcases h.1 with rfl | rfl | rfl | rfl <;> rfl

theorem wireEnd_congr {d c : CellPos} {s s' : Cells.State CellPos qca}
    (h : ∀ p : CellPos, 0 < p.2.2 → s'.getCellType p = s.getCellType p) : wireEnd d s' c ↔ wireEnd d s c := by
  unfold wireEnd
  by_cases h0 : 0 < c.2.2
  · rw [h c h0]
    have : (adjacentCells d c).filter (fun a => decide (s'.getCellType a ≠ QcaType.empty)) =
        (adjacentCells d c).filter (fun a => decide (s.getCellType a ≠ QcaType.empty)) := by
      apply List.filter_congr
      intro a ha
      rw [h a (by rw [adjacent_layer ha]; exact h0)]
    rw [this]
  · simp [h0]

theorem fold_via (d : CellPos) (l : List CellPos) (s : Cells.State CellPos qca) (p : CellPos) :
    (l.foldl (viaStep d) s).getCellType p =
      (if p.2.2 = 0 ∧ ∃ c ∈ l, wireEnd d s c ∧ c.1 = p.1 ∧ c.2.1 = p.2.1 then .normal else s.getCellType p) ∧
    (l.foldl (viaStep d) s).getCellMode p =
      (if (∃ c ∈ l, wireEnd d s c ∧ (p = (c.1, c.2.1, 0) ∨ p = c)) then .vertical else s.getCellMode p) := by
  induction l generalizing s with
  | nil => simp
  | cons c l ih =>
    have hc : ∀ q : CellPos, 0 < q.2.2 → (viaStep d s c).getCellType q = s.getCellType q := by
      intro q hq
      rw [viaStep_type, if_neg]
      rintro ⟨-, rfl⟩
      exact absurd hq (by simp)
    have hw : ∀ e, wireEnd d (viaStep d s c) e ↔ wireEnd d s e := fun e => wireEnd_congr hc
    rw [List.foldl_cons, (ih _).1, (ih _).2]
    simp only [hw, viaStep_type, viaStep_mode, List.exists_mem_cons_iff]
    obtain ⟨x, y, z⟩ := p
    simp only [Prod.mk.injEq]
    constructor
    · by_cases h : wireEnd d s c
      · simp only [h, true_and]
        by_cases hz : z = 0
        · subst hz
          simp only [true_and, and_true]
          by_cases h2 : ∃ c ∈ l, wireEnd d s c ∧ c.1 = x ∧ c.2.1 = y
          · rw [if_pos h2, if_pos (.inr h2)]
          · rw [if_neg h2]
            by_cases h3 : x = c.1 ∧ y = c.2.1
            · rw [if_pos h3, if_pos (.inl ⟨h3.1.symm, h3.2.symm⟩)]
            · rw [if_neg h3, if_neg]
              rintro (hh | hh)
              · exact h3 ⟨hh.1.symm, hh.2.symm⟩
              · exact h2 hh
        · simp [hz]
      · rw [if_neg (fun hh : wireEnd d s c ∧ _ => h hh.1)]
        refine if_congr ⟨fun hh => ⟨hh.1, .inr hh.2⟩, fun hh => ⟨hh.1, hh.2.resolve_left fun e => h e.1⟩⟩ rfl rfl
    · by_cases h2 : ∃ e ∈ l, wireEnd d s e ∧ ((x = e.1 ∧ y = e.2.1 ∧ z = 0) ∨ (x, y, z) = e)
      · rw [if_pos h2, if_pos (.inr h2)]
      · rw [if_neg h2]
        by_cases h3 : wireEnd d s c ∧ ((x = c.1 ∧ y = c.2.1 ∧ z = 0) ∨ (x, y, z) = c)
        · rw [if_pos h3, if_pos (.inl h3)]
        · rw [if_neg h3, if_neg]
          rintro (hh | hh)
          · exact h3 hh
          · exact h2 hh

theorem mem_positions {d c : CellPos} : c ∈ positions d ↔ c.1 ≤ d.1 ∧ c.2.1 ≤ d.2.1 ∧ c.2.2 ≤ d.2.2 := by
  obtain ⟨x, y, z⟩ := c
  simp only [positions, List.mem_flatMap, List.mem_range, List.mem_map, Prod.mk.injEq]
  grind

/-- C59: the post-layout optimization adds a ground cell below each cell of a crossing layer that ends a wire, and gives both the
vertical mode. It changes nothing else. -/
theorem C59_vias (d : CellPos) (s : Cells.State CellPos qca) (p : CellPos) :
    (postLayout d s).getCellType p =
      (if p.2.2 = 0 ∧ ∃ z ≤ d.2.2, p.1 ≤ d.1 ∧ p.2.1 ≤ d.2.1 ∧ wireEnd d s (p.1, p.2.1, z) then .normal else s.getCellType p) ∧
    (postLayout d s).getCellMode p =
      (if (p.1 ≤ d.1 ∧ p.2.1 ≤ d.2.1 ∧ p.2.2 ≤ d.2.2 ∧ wireEnd d s p) ∨
        (p.2.2 = 0 ∧ ∃ z ≤ d.2.2, p.1 ≤ d.1 ∧ p.2.1 ≤ d.2.1 ∧ wireEnd d s (p.1, p.2.1, z)) then .vertical else s.getCellMode p) := by
  unfold postLayout
  rw [(fold_via d _ s p).1, (fold_via d _ s p).2]
  obtain ⟨x, y, z⟩ := p
  constructor
  · congr 1
    apply propext
    simp only [mem_positions]
    constructor
    · rintro ⟨h0, ⟨x', y', z'⟩, hp, hw, rfl, rfl⟩
      exact ⟨h0, z', hp.2.2, hp.1, hp.2.1, hw⟩
    · rintro ⟨h0, z', h1, h2, h3, hw⟩
      exact ⟨h0, (x, y, z'), ⟨h2, h3, h1⟩, hw, rfl, rfl⟩
  · congr 1
    apply propext
    simp only [mem_positions]
    constructor
    · rintro ⟨⟨x', y', z'⟩, hp, hw, h | h⟩
      · simp only [Prod.mk.injEq] at h
        obtain ⟨rfl, rfl, rfl⟩ := h
        exact .inr ⟨rfl, z', hp.2.2, hp.1, hp.2.1, hw⟩
      · rw [← h] at hw hp
        exact .inl ⟨hp.1, hp.2.1, hp.2.2, hw⟩
    · rintro (⟨h1, h2, h3, hw⟩ | ⟨h0, z', h1, h2, h3, hw⟩)
      · exact ⟨(x, y, z), ⟨h1, h2, h3⟩, hw, .inr rfl⟩
      · have h0 : z = 0 := h0
        subst h0
        exact ⟨(x, y, z'), ⟨h2, h3, h1⟩, hw, .inl rfl⟩

/-! ## Connections between tiles -/

/-- The side on which a neighboring tile sees this one. -/
def opposite : Side → Side
  | .north => .south
  | .east => .west
  | .south => .north
  | .west => .east

/-- The side of `t` at which `u` is. -/
theorem side_of {m : Dim} {t u : Coord} (ht : InBounds m t) (hu : InBounds m u)
    (h : GateLevel.Topo.isAdjacentElevationOf .cart m t u = true) :
    ∃ d : Side, d.go m t = ⟨u.x, u.y, t.z, false⟩ ∧ (opposite d).go m u = ⟨t.x, t.y, u.z, false⟩ ∧
      touching ((relToAbs .cartesian 5 5 t (port d)).1, (relToAbs .cartesian 5 5 t (port d)).2.1)
        ((relToAbs .cartesian 5 5 u (port (opposite d))).1, (relToAbs .cartesian 5 5 u (port (opposite d))).2.1) = true ∧
      (t.z ≤ u.z + 1 ∧ u.z ≤ t.z + 1) := by
  have h' := (C07_adjacent_elevation m t u ht hu).1 h
  obtain ⟨x, y, z, e⟩ := t
  obtain ⟨x', y', z', e'⟩ := u
  obtain ⟨e1, hx, hy, hz⟩ := ht
  obtain ⟨e2, hx', hy', hz'⟩ := hu
  simp only at h' e1 e2 hx hy hz hx' hy' hz'
  subst e1 e2
  have : (x = x' ∧ y = y' + 1) ∨ (x = x' ∧ y' = y + 1) ∨ (y = y' ∧ x = x' + 1) ∨ (y = y' ∧ x' = x + 1) := by omega
  rcases this with ⟨rfl, rfl⟩ | ⟨rfl, rfl⟩ | ⟨rfl, rfl⟩ | ⟨rfl, rfl⟩
  · refine ⟨.north, ?_, ?_, ?_, ?_, ?_⟩
    · simp [Side.go, Cart.north]
    · simp only [Side.go, opposite, Cart.south]
      rw [if_neg (by omega), if_pos (by omega)]
    · simp [touching, relToAbs, port, opposite]; omega
    all_goals simp only; omega
  · refine ⟨.south, ?_, ?_, ?_, ?_, ?_⟩
    · simp only [Side.go, Cart.south]
      rw [if_neg (by omega), if_pos (by omega)]
    · simp [Side.go, opposite, Cart.north]
    · simp [touching, relToAbs, port, opposite]; omega
    all_goals simp only; omega
  · refine ⟨.west, ?_, ?_, ?_, ?_, ?_⟩
    · simp [Side.go, Cart.west]
    · simp only [Side.go, opposite, Cart.east]
      rw [if_neg (by omega), if_pos (by omega)]
    · simp [touching, relToAbs, port, opposite]; omega
    all_goals simp only; omega
  · refine ⟨.east, ?_, ?_, ?_, ?_, ?_⟩
    · simp only [Side.go, Cart.east]
      rw [if_neg (by omega), if_pos (by omega)]
    · simp [Side.go, opposite, Cart.west]
    · simp [touching, relToAbs, port, opposite]; omega
    all_goals simp only; omega

/-- A tile is, or is above or below, the tile at the same place in a neighboring layer. -/
theorem elevation {m : Dim} {u : Coord} {z : Nat} (hu : InBounds m u) (hz : z ≤ m.Z) (h1 : z ≤ u.z + 1) (h2 : u.z ≤ z + 1) :
    (u == ⟨u.x, u.y, z, false⟩ || Cart.above m u == ⟨u.x, u.y, z, false⟩ || Cart.below u == ⟨u.x, u.y, z, false⟩) = true := by
  obtain ⟨x, y, k, e⟩ := u
  obtain ⟨rfl, -, -, hk⟩ := hu
  simp only at h1 h2 hk
  simp only [Bool.or_eq_true, beq_iff_eq, Cart.above, Cart.below, Coord.mk.injEq, true_and, and_true]
  have : k = z ∨ (k + 1 = z) ∨ (k = z + 1) := by omega
  rcases this with h | h | h
  · exact .inl (.inl h)
  · left; right
    split_ifs <;> simp <;> omega
  · right
    split_ifs <;> simp <;> omega

variable {m : Dim} {cs : Scheme}

theorem setUpAt_gate {gl : GateLevel.State} {t : Coord} {g : Gate 5 5 QcaType} (h : setUpAt m cs gl t = some g) :
    setUp (Tile.of m cs gl true t) = some (.gate g) := by
  unfold setUpAt at h
  split at h
  · rename_i e
    rw [Option.some.injEq] at h
    rw [e, h]
  · exact absurd h (by simp)

/-- There is no gate for nodes that are not on a tile. -/
theorem setUpAt_dead {ops : List GateLevel.Op} (hv : GateLevel.Valid m GateLevel.init ops) (t : Coord) (ht : t.d = true) :
    setUpAt m cs (GateLevel.run m GateLevel.init ops) t = none := by
  have w : GateLevel.WF (GateLevel.run m GateLevel.init ops) := GateLevel.WF.init.run m ops hv
  have hn : (GateLevel.run m GateLevel.init ops).getNode t ≤ 1 := by
    unfold GateLevel.State.getNode
    cases e : (GateLevel.run m GateLevel.init ops).tileNode t with
    | none => simp
    | some k => exact (w.live t k e).2 ht
  have hf := GateLevel.const_fn m ops hv _ hn
  unfold setUpAt
  split
  · rename_i g e
    rcases setUp_cases e with h | h | h | h | h | h | h <;>
      · have h := h.1
        have e2 : (Tile.of m cs (GateLevel.run m GateLevel.init ops) true t).fn =
          ((GateLevel.run m GateLevel.init ops).nodes ((GateLevel.run m GateLevel.init ops).getNode t)).fn := rfl
        omega
  · rfl

/-- The cells beside the middle of a side are empty. -/
def sideClear (g : Gate 5 5 QcaType) : Prop :=
  ∀ p ∈ [((1, 0) : Port), (3, 0), (1, 4), (3, 4), (0, 1), (0, 3), (4, 1), (4, 3)], g.filled isEmpty p = false

instance (g : Gate 5 5 QcaType) : Decidable (sideClear g) := by unfold sideClear; infer_instance

theorem table_sideClear : (∀ map ∈ [wireMap, inverterMap, conjunctionMap, disjunctionMap, fanoutMap], ∀ e ∈ map,
    Entry.mid e → sideClear (e.rot.fn e.base)) ∧ sideClear fanOut13 ∧ sideClear majority := by
  decide +kernel

theorem setUp_sideClear {t : Tile} {g : Gate 5 5 QcaType} (h : setUp t = some (.gate g)) : sideClear g := by
  obtain ⟨t1, t2, t3⟩ := table_sideClear
  rcases setUp_cases h with ⟨-, -, e, he, f⟩ | ⟨-, -, rfl⟩ | ⟨-, -, -, e, he, f⟩ | ⟨-, e, he, f⟩ | ⟨-, e, he, f⟩ | ⟨-, e, he, f⟩ | ⟨-, rfl⟩
  · rw [f.gate]; exact t1 _ (by simp) e he f.mid
  · exact t2
  · rw [f.gate]; exact t1 _ (by simp) e he f.mid
  · rw [f.gate]; exact t1 _ (by simp) e he f.mid
  · rw [f.gate]; exact t1 _ (by simp) e he f.mid
  · rw [f.gate]; exact t1 _ (by simp) e he f.mid
  · exact t3

/-- The nodes `n` and `k` of a layout are connected: one is a fanin of the other. -/
def Connected (m : Dim) (cs : Scheme) (gl : GateLevel.State) (n k : Nat) : Prop :=
  gl.getTile k ∈ gl.fanins m .cart cs true n ∨ gl.getTile n ∈ gl.fanins m .cart cs true k

theorem fanin_side {ops : List GateLevel.Op} (hv : GateLevel.Valid m GateLevel.init ops) (hX : m.X < 2^31 - 1) (hY : m.Y < 2^31 - 1)
    (hcs : GateLevel.LayerFree cs) {n k : Nat} (hn : 2 ≤ n) (hk : 2 ≤ k)
    (hb : InBounds m ((GateLevel.run m GateLevel.init ops).getTile n))
    (h : (GateLevel.run m GateLevel.init ops).getTile k ∈ (GateLevel.run m GateLevel.init ops).fanins m .cart cs true n) :
    let gl := GateLevel.run m GateLevel.init ops
    InBounds m (gl.getTile k) ∧ ∃ d : Side, (Tile.of m cs gl true (gl.getTile n)).inc d = true ∧
      (Tile.of m cs gl true (gl.getTile k)).out (opposite d) = true ∧
      d.go m (gl.getTile n) = ⟨(gl.getTile k).x, (gl.getTile k).y, (gl.getTile n).z, false⟩ ∧
      (opposite d).go m (gl.getTile k) = ⟨(gl.getTile n).x, (gl.getTile n).y, (gl.getTile k).z, false⟩ ∧
      touching ((relToAbs .cartesian 5 5 (gl.getTile n) (port d)).1, (relToAbs .cartesian 5 5 (gl.getTile n) (port d)).2.1)
        ((relToAbs .cartesian 5 5 (gl.getTile k) (port (opposite d))).1,
          (relToAbs .cartesian 5 5 (gl.getTile k) (port (opposite d))).2.1) = true := by
  intro gl
  obtain ⟨hbk, hkk, hf⟩ := GateLevel.C20_fanin_is_fanout m ops hv .cart hX hY cs hcs n hb _ h
  have bij := (GateLevel.C16_bijection m ops hv).1
  have en : gl.getNode (gl.getTile n) = n := (bij _ n hb.1 hn).2 rfl
  have ek : gl.getNode (gl.getTile k) = k := (bij _ k hbk.1 hk).2 rfl
  have adj : GateLevel.Topo.isAdjacentElevationOf .cart m (gl.getTile n) (gl.getTile k) = true := by
    have h' := h
    unfold GateLevel.State.fanins at h'
    rw [if_neg (by omega)] at h'
    simp only [List.mem_map, List.mem_filter, Bool.and_eq_true] at h'
    obtain ⟨c, ⟨-, hc, -⟩, e⟩ := h'
    rw [e] at hc
    exact hc
  obtain ⟨d, g1, g2, tch, z1, z2⟩ := side_of hb hbk adj
  refine ⟨hbk, d, ?_, ?_, g1, g2, tch⟩
  · show isIncomingSignal m .cart cs gl true (gl.getTile n) (d.go m (gl.getTile n)) = true
    unfold isIncomingSignal
    rw [en, List.any_eq_true]
    refine ⟨gl.getTile k, h, ?_⟩
    rw [g1]
    exact elevation hbk hb.2.2.2 z1 z2
  · show isOutgoingSignal m .cart cs gl true (gl.getTile k) ((opposite d).go m (gl.getTile k)) = true
    unfold isOutgoingSignal
    rw [ek, List.any_eq_true]
    refine ⟨gl.getTile n, List.mem_map.2 ⟨n, by rw [← ek]; exact hf, rfl⟩, ?_⟩
    rw [g2]
    exact elevation hb hbk.2.2.2 z2 z1

theorem touching_symm {p q : Port} (h : touching p q = true) : touching q p = true := by
  unfold touching at *
  simp only [Bool.or_eq_true, Bool.and_eq_true, beq_iff_eq] at *
  omega

theorem opposite_opposite (d : Side) : opposite (opposite d) = d := by cases d <;> rfl

/-- The column and the row of a cell. -/
def flat (p : CellPos) : Port := (p.1, p.2.1)

theorem connected_side {ops : List GateLevel.Op} (hv : GateLevel.Valid m GateLevel.init ops) (hX : m.X < 2^31 - 1)
    (hY : m.Y < 2^31 - 1) (hcs : GateLevel.LayerFree cs) {n k : Nat} (hn : 2 ≤ n) (hk : 2 ≤ k)
    (hb : InBounds m ((GateLevel.run m GateLevel.init ops).getTile n))
    (hb' : InBounds m ((GateLevel.run m GateLevel.init ops).getTile k))
    (h : Connected m cs (GateLevel.run m GateLevel.init ops) n k) :
    let gl := GateLevel.run m GateLevel.init ops
    ∃ d : Side, ((Tile.of m cs gl true (gl.getTile n)).inc d = true ∨ (Tile.of m cs gl true (gl.getTile n)).out d = true) ∧
      ((Tile.of m cs gl true (gl.getTile k)).inc (opposite d) = true ∨
        (Tile.of m cs gl true (gl.getTile k)).out (opposite d) = true) ∧
      d.go m (gl.getTile n) = ⟨(gl.getTile k).x, (gl.getTile k).y, (gl.getTile n).z, false⟩ ∧
      (opposite d).go m (gl.getTile k) = ⟨(gl.getTile n).x, (gl.getTile n).y, (gl.getTile k).z, false⟩ ∧
      touching (flat (relToAbs .cartesian 5 5 (gl.getTile n) (port d)))
        (flat (relToAbs .cartesian 5 5 (gl.getTile k) (port (opposite d)))) = true := by
  intro gl
  rcases h with h | h
  · obtain ⟨-, d, h1, h2, h3, h4, h5⟩ := fanin_side hv hX hY hcs hn hk hb h
    exact ⟨d, .inl h1, .inr h2, h3, h4, h5⟩
  · obtain ⟨-, d, h1, h2, h3, h4, h5⟩ := fanin_side hv hX hY hcs hk hn hb' h
    refine ⟨opposite d, .inr h2, ?_, h4, ?_, ?_⟩
    · rw [opposite_opposite]; exact .inl h1
    · rw [opposite_opposite]; exact h3
    · rw [opposite_opposite]; exact touching_symm h5

theorem filled_fin {g : Gate 5 5 QcaType} {p : Port} (h : g.filled isEmpty p = true) :
    ∃ (x y : Fin 5), p = (x.val, y.val) ∧ g y x ≠ .empty := by
  have hg := mem_grid.1 (filled_grid h)
  refine ⟨⟨p.1, hg.1⟩, ⟨p.2, hg.2⟩, rfl, ?_⟩
  intro e
  simp only [Gate.filled, Gate.cell, hg, and_self, dite_true, e, isEmpty] at h
  exact absurd h (by decide)

theorem not_filled_fin {g : Gate 5 5 QcaType} {x y : Fin 5} (h : g.filled isEmpty (x.val, y.val) = false) : g y x = .empty := by
  by_contra hc
  simp only [Gate.filled, Gate.cell, x.isLt, y.isLt, and_self, dite_true, Fin.eta] at h
  generalize g y x = v at *
  cases v <;> simp_all [isEmpty]

/-- What the cells of the tile of a node are before the post-layout optimization. -/
theorem tile_cells {ops : List GateLevel.Op} (hv : GateLevel.Valid m GateLevel.init ops) {name : Nat → String}
    {s : Cells.State CellPos qca}
    (h : applyLibrary .cartesian (GateLevel.run m GateLevel.init ops) (setUpAt m cs (GateLevel.run m GateLevel.init ops)) name = some s)
    {n : Nat} (hn : n ∈ (GateLevel.run m GateLevel.init ops).allNodes) (h2 : 2 ≤ n) :
    let t := (GateLevel.run m GateLevel.init ops).getTile n
    ∃ g, setUp (Tile.of m cs (GateLevel.run m GateLevel.init ops) true t) = some (.gate g) ∧
      ∀ (x y : Fin 5), s.getCellType (relToAbs .cartesian 5 5 t (x.val, y.val)) = g y x := by
  intro t
  obtain ⟨h1, -, -⟩ := C59_cells Cells.qca_lawful hv (l := .cartesian) (by simp) (fun t ht => setUpAt_dead hv t ht) h
  obtain ⟨g, hg, hh⟩ := h1 n hn h2
  exact ⟨g, setUpAt_gate hg, fun x y => (hh x y).1⟩

/-- C59: in the layout that `apply_gate_library` makes from QCA ONE gates, the tiles of connected nodes have cells next to each other:
both tiles have a cell in the middle of the side they share (`d` is the side as seen from `n`). If the tiles are in the same layer,
the two cells touch; otherwise they touch when seen from above, see `C59_qca_layer_change`. -/
theorem C59_qca_connected {ops : List GateLevel.Op} (hv : GateLevel.Valid m GateLevel.init ops) (hX : m.X < 2^31 - 1)
    (hY : m.Y < 2^31 - 1) (hcs : GateLevel.LayerFree cs) {name : Nat → String} {s : Cells.State CellPos qca}
    (h : apply m cs (GateLevel.run m GateLevel.init ops) name = some s) {n k : Nat}
    (hn : n ∈ (GateLevel.run m GateLevel.init ops).allNodes) (h2 : 2 ≤ n)
    (hk : k ∈ (GateLevel.run m GateLevel.init ops).allNodes) (hk2 : 2 ≤ k)
    (hb : InBounds m ((GateLevel.run m GateLevel.init ops).getTile n))
    (hb' : InBounds m ((GateLevel.run m GateLevel.init ops).getTile k))
    (hc : Connected m cs (GateLevel.run m GateLevel.init ops) n k) :
    let gl := GateLevel.run m GateLevel.init ops
    ∃ d : Side, d.go m (gl.getTile n) = ⟨(gl.getTile k).x, (gl.getTile k).y, (gl.getTile n).z, false⟩ ∧
      s.getCellType (relToAbs .cartesian 5 5 (gl.getTile n) (port d)) ≠ .empty ∧
      s.getCellType (relToAbs .cartesian 5 5 (gl.getTile k) (port (opposite d))) ≠ .empty ∧
      touching (flat (relToAbs .cartesian 5 5 (gl.getTile n) (port d)))
        (flat (relToAbs .cartesian 5 5 (gl.getTile k) (port (opposite d)))) = true := by
  intro gl
  obtain ⟨s0, h0, rfl⟩ := Option.map_eq_some_iff.1 h
  obtain ⟨d, hd, hd', g1, -, tch⟩ := connected_side hv hX hY hcs h2 hk2 hb hb' hc
  have key : ∀ j ∈ gl.allNodes, 2 ≤ j → ∀ d : Side, ((Tile.of m cs gl true (gl.getTile j)).inc d = true ∨
      (Tile.of m cs gl true (gl.getTile j)).out d = true) →
      (postLayout (cellAspect .cartesian 5 5 m) s0).getCellType (relToAbs .cartesian 5 5 (gl.getTile j) (port d)) ≠ .empty := by
    intro j hj hj2 d hd
    obtain ⟨g, hg, hh⟩ := tile_cells hv h0 hj hj2
    obtain ⟨x, y, e, hne⟩ := filled_fin (C58_qca_contact hg hd)
    rw [(C59_vias _ _ _).1]
    split_ifs
    · exact fun e => by cases e
    · rw [e, hh x y]
      exact hne
  exact ⟨d, g1, key n hn h2 d hd, key k hk hk2 _ hd', tch⟩

theorem filter4 {s0 : Cells.State CellPos qca} {c i j k l : CellPos}
    (h : ((j = c ∨ s0.getCellType j = QcaType.empty) ∧ (k = c ∨ s0.getCellType k = QcaType.empty) ∧
        (l = c ∨ s0.getCellType l = QcaType.empty)) ∨
      ((i = c ∨ s0.getCellType i = QcaType.empty) ∧ (k = c ∨ s0.getCellType k = QcaType.empty) ∧
        (l = c ∨ s0.getCellType l = QcaType.empty)) ∨
      ((i = c ∨ s0.getCellType i = QcaType.empty) ∧ (j = c ∨ s0.getCellType j = QcaType.empty) ∧
        (l = c ∨ s0.getCellType l = QcaType.empty)) ∨
      ((i = c ∨ s0.getCellType i = QcaType.empty) ∧ (j = c ∨ s0.getCellType j = QcaType.empty) ∧
        (k = c ∨ s0.getCellType k = QcaType.empty))) :
    ([i, j, k, l].filter (fun a => decide (s0.getCellType a ≠ QcaType.empty) && decide (a ≠ c))).length ≤ 1 := by
  have bad : ∀ x, (x = c ∨ s0.getCellType x = QcaType.empty) →
      (fun a => decide (s0.getCellType a ≠ QcaType.empty) && decide (a ≠ c)) x = false := by
    rintro x (rfl | h)
    · simp
    · simp [h]
  generalize (fun a => decide (s0.getCellType a ≠ QcaType.empty) && decide (a ≠ c)) = P at bad ⊢
  rcases h with ⟨a, b, d⟩ | ⟨a, b, d⟩ | ⟨a, b, d⟩ | ⟨a, b, d⟩ <;>
    · have a := bad _ a
      have b := bad _ b
      have d := bad _ d
      simp only [List.filter_cons, a, b, d, List.filter_nil, Bool.false_eq_true, if_false]
      split_ifs <;> simp

/-- The cells next to the middle of a side, within the tile and beyond. -/
theorem wireEnd_port {D : CellPos} {s0 : Cells.State CellPos qca} {t : Coord} {g : Gate 5 5 QcaType} (hz : 0 < t.z)
    (hs : sideClear g) (hh : ∀ (x y : Fin 5), s0.getCellType (relToAbs .cartesian 5 5 t (x.val, y.val)) = g y x) {d : Side}
    (hf : g.filled isEmpty (port d) = true) {q : Port} (ht : touching (flat (relToAbs .cartesian 5 5 t (port d))) q = true)
    (hq : ¬(5 * t.x ≤ q.1 ∧ q.1 < 5 * t.x + 5 ∧ 5 * t.y ≤ q.2 ∧ q.2 < 5 * t.y + 5)) (he : s0.getCellType (q.1, q.2, t.z) = .empty) :
    wireEnd D s0 (relToAbs .cartesian 5 5 t (port d)) := by
  obtain ⟨x, y, e, hne⟩ := filled_fin hf
  refine ⟨hz, ?_, ?_⟩
  · rw [e, hh x y]; exact hne
  have clear : ∀ (x y : Fin 5), (x.val, y.val) ∈ [((1, 0) : Port), (3, 0), (1, 4), (3, 4), (0, 1), (0, 3), (4, 1), (4, 3)] →
      s0.getCellType (t.x * 5 + x.val, t.y * 5 + y.val, t.z) = .empty := by
    intro x y hm
    have h1 := hh x y
    rw [not_filled_fin (hs _ hm)] at h1
    exact h1
  obtain ⟨q1, q2⟩ := q
  unfold adjacentCells
  rw [List.filter_filter]
  simp only [touching, flat, relToAbs, Bool.or_eq_true, Bool.and_eq_true, beq_iff_eq] at ht hq he
  have right : ∀ c1 c2 : Nat, s0.getCellType (c1 + 1, c2, t.z) = QcaType.empty → ∀ k,
      (((if c1 < k then c1 + 1 else c1, c2, t.z) : CellPos) = (c1, c2, t.z) ∨
        s0.getCellType (if c1 < k then c1 + 1 else c1, c2, t.z) = QcaType.empty) := by
    intro c1 c2 h k
    split_ifs
    · exact .inr h
    · exact .inl rfl
  have down : ∀ c1 c2 : Nat, s0.getCellType (c1, c2 + 1, t.z) = QcaType.empty → ∀ k,
      (((c1, if c2 < k then c2 + 1 else c2, t.z) : CellPos) = (c1, c2, t.z) ∨
        s0.getCellType (c1, if c2 < k then c2 + 1 else c2, t.z) = QcaType.empty) := by
    intro c1 c2 h k
    split_ifs
    · exact .inr h
    · exact .inl rfl
  cases d
  · have c1 := clear 3 0 (by decide)
    have c2 := clear 1 0 (by decide)
    simp only [port] at ht
    have o : q1 = t.x * 5 + 2 ∧ q2 = t.y * 5 + 0 - 1 := by omega
    rw [o.1, o.2] at he
    exact filter4 (.inr (.inr (.inl ⟨.inr he, right _ _ c1 _, .inr c2⟩)))
  · have c1 := clear 4 1 (by decide)
    have c2 := clear 4 3 (by decide)
    simp only [port] at ht
    have o : q1 = t.x * 5 + 4 + 1 ∧ q2 = t.y * 5 + 2 := by omega
    rw [o.1, o.2] at he
    exact filter4 (.inr (.inr (.inr ⟨.inr c1, right _ _ he _, down _ _ c2 _⟩)))
  · have c1 := clear 3 4 (by decide)
    have c2 := clear 1 4 (by decide)
    simp only [port] at ht
    have o : q1 = t.x * 5 + 2 ∧ q2 = t.y * 5 + 4 + 1 := by omega
    rw [o.1, o.2] at he
    exact filter4 (.inl ⟨right _ _ c1 _, down _ _ he _, .inr c2⟩)
  · have c1 := clear 0 1 (by decide)
    have c2 := clear 0 3 (by decide)
    simp only [port] at ht
    have o : q1 = t.x * 5 + 0 - 1 ∧ q2 = t.y * 5 + 2 := by omega
    rw [o.1, o.2] at he
    exact filter4 (.inr (.inl ⟨.inr c1, down _ _ c2 _, .inr he⟩))

theorem other_tile {t u : Coord} {p : Port} (h : u.x ≠ t.x ∨ u.y ≠ t.y) (h1 : p.1 < 5) (h2 : p.2 < 5) :
    ¬(5 * t.x ≤ (flat (relToAbs .cartesian 5 5 u p)).1 ∧ (flat (relToAbs .cartesian 5 5 u p)).1 < 5 * t.x + 5 ∧
      5 * t.y ≤ (flat (relToAbs .cartesian 5 5 u p)).2 ∧ (flat (relToAbs .cartesian 5 5 u p)).2 < 5 * t.y + 5) := by
  simp only [flat, relToAbs]
  omega

/-- C59: where a connection changes from the crossing layer to the ground layer, the post-layout optimization makes a via: the last
cell in the crossing layer and a new cell below it are vertical, and the new cell touches the cell of the other tile. This needs
that the place above the cell of the other tile is empty (`hclear`), see `C59_qca_layer_swap`. -/
theorem C59_qca_layer_change {ops : List GateLevel.Op} (hv : GateLevel.Valid m GateLevel.init ops) (hX : m.X < 2^31 - 1)
    (hY : m.Y < 2^31 - 1) (hcs : GateLevel.LayerFree cs) {name : Nat → String} {s : Cells.State CellPos qca}
    (h : apply m cs (GateLevel.run m GateLevel.init ops) name = some s) {n k : Nat}
    (hn : n ∈ (GateLevel.run m GateLevel.init ops).allNodes) (h2 : 2 ≤ n)
    (hk : k ∈ (GateLevel.run m GateLevel.init ops).allNodes) (hk2 : 2 ≤ k)
    (hb : InBounds m ((GateLevel.run m GateLevel.init ops).getTile n))
    (hb' : InBounds m ((GateLevel.run m GateLevel.init ops).getTile k))
    (hc : Connected m cs (GateLevel.run m GateLevel.init ops) n k)
    (hz : 0 < ((GateLevel.run m GateLevel.init ops).getTile n).z)
    (hclear : ∀ d : Side, let p := relToAbs .cartesian 5 5 ((GateLevel.run m GateLevel.init ops).getTile k) (port d)
      s.getCellType (p.1, p.2.1, ((GateLevel.run m GateLevel.init ops).getTile n).z) = .empty) :
    let gl := GateLevel.run m GateLevel.init ops
    ∃ p q : CellPos, (∃ d, p = relToAbs .cartesian 5 5 (gl.getTile n) (port d)) ∧
      (∃ d, q = relToAbs .cartesian 5 5 (gl.getTile k) (port d)) ∧ touching (flat p) (flat q) = true ∧
      s.getCellType p ≠ .empty ∧ s.getCellMode p = .vertical ∧
      s.getCellType (p.1, p.2.1, 0) = .normal ∧ s.getCellMode (p.1, p.2.1, 0) = .vertical ∧ s.getCellType q ≠ .empty := by
  intro gl
  obtain ⟨s0, h0, rfl⟩ := Option.map_eq_some_iff.1 h
  obtain ⟨d, hd, hd', g1, -, tch⟩ := connected_side hv hX hY hcs h2 hk2 hb hb' hc
  obtain ⟨g, hg, hh⟩ := tile_cells hv h0 hn h2
  obtain ⟨g', hg', hh'⟩ := tile_cells hv h0 hk hk2
  have hc0 := hclear (opposite d)
  simp only at hc0
  rw [(C59_vias _ _ _).1, if_neg (fun hh => absurd hh.1 (Nat.ne_of_gt hz))] at hc0
  have hdiff : (gl.getTile k).x ≠ (gl.getTile n).x ∨ (gl.getTile k).y ≠ (gl.getTile n).y := by
    by_contra hcon
    push Not at hcon
    generalize gl.getTile k = u at hcon tch
    generalize gl.getTile n = t at hcon tch
    simp only [touching, flat, relToAbs, hcon, Bool.or_eq_true, Bool.and_eq_true, beq_iff_eq] at tch
    cases d <;> simp only [port, opposite] at tch <;> omega
  have we : wireEnd (cellAspect .cartesian 5 5 m) s0 (relToAbs .cartesian 5 5 (gl.getTile n) (port d)) := by
    refine wireEnd_port hz (setUp_sideClear hg) hh (C58_qca_contact hg hd) tch ?_ hc0
    exact other_tile hdiff (by cases d <;> decide) (by cases d <;> decide)
  have hbd : ∀ d : Side, (port d).1 < 5 ∧ (port d).2 < 5 := fun d => by cases d <;> decide
  obtain ⟨i1, i2, i3⟩ := C59_in_bounds .cartesian hb (hbd d).1 (hbd d).2
  refine ⟨_, _, ⟨d, rfl⟩, ⟨opposite d, rfl⟩, tch, ?_, ?_, ?_, ?_, ?_⟩
  · rw [(C59_vias _ _ _).1]
    split_ifs
    · exact fun e => by cases e
    · exact we.2.1
  · rw [(C59_vias _ _ _).2, if_pos (.inl ⟨i1, i2, i3, we⟩)]
  · rw [(C59_vias _ _ _).1, if_pos ⟨rfl, _, i3, i1, i2, we⟩]
  · rw [(C59_vias _ _ _).2, if_pos (.inr ⟨rfl, _, i3, i1, i2, we⟩)]
  · rw [(C59_vias _ _ _).1]
    split_ifs
    · exact fun e => by cases e
    · obtain ⟨x, y, e, hne⟩ := filled_fin (C58_qca_contact hg' hd')
      rw [e, hh' x y]
      exact hne

/-! ## Examples -/

/-- An input, a wire in the crossing layer and an output, and a wire below the wire. -/
def demo : List GateLevel.Op :=
  [.createPi ⟨0, 0, 0, false⟩, .createPi ⟨1, 0, 0, false⟩, .createGate 2 [⟨0, 0, 0, false⟩] ⟨1, 0, 1, false⟩,
    .createPo ⟨1, 0, 1, false⟩ ⟨2, 0, 0, false⟩, .createPo ⟨1, 0, 0, false⟩ ⟨1, 1, 0, false⟩]

/-- The layout has three columns, two rows and two layers and the clocking scheme 2DDWave. -/
def demoDim : Dim := ⟨2, 1, 1⟩

def demoClk : Scheme := twoddwaveClocking .cart .four

theorem demo_valid : GateLevel.Valid demoDim GateLevel.init demo :=
  ⟨trivial, trivial, trivial, trivial, trivial, trivial⟩

/-- QCA ONE can be applied to it. The cell in the crossing layer at the end of the wire is a via, and there is a ground cell below it
that touches the output. -/
example : (apply demoDim demoClk (GateLevel.run demoDim GateLevel.init demo) (fun n => if n = 2 then "a" else "")).any (fun s =>
    s.getCellType (9, 2, 1) = .normal ∧ s.getCellMode (9, 2, 1) = .vertical ∧ s.getCellType (9, 2, 0) = .normal ∧
    s.getCellType (10, 2, 0) ≠ .empty ∧ s.numPis = 2 ∧ s.numPos = 2 ∧ s.getCellName (2, 2, 0) = "a") = true := by
  decide +kernel

/-- Its nodes meet the hypotheses of `C59_qca_connected` and `C59_qca_layer_change`. -/
example : GateLevel.LayerFree demoClk ∧
    4 ∈ (GateLevel.run demoDim GateLevel.init demo).allNodes ∧ 5 ∈ (GateLevel.run demoDim GateLevel.init demo).allNodes ∧
    InBounds demoDim ((GateLevel.run demoDim GateLevel.init demo).getTile 4) ∧
    InBounds demoDim ((GateLevel.run demoDim GateLevel.init demo).getTile 5) ∧
    Connected demoDim demoClk (GateLevel.run demoDim GateLevel.init demo) 4 5 ∧
    0 < ((GateLevel.run demoDim GateLevel.init demo).getTile 4).z ∧
    (apply demoDim demoClk (GateLevel.run demoDim GateLevel.init demo) (fun _ => "")).any (fun s => ∀ d ∈ sides,
      s.getCellType ((relToAbs .cartesian 5 5 ((GateLevel.run demoDim GateLevel.init demo).getTile 5) (port d)).1,
        (relToAbs .cartesian 5 5 ((GateLevel.run demoDim GateLevel.init demo).getTile 5) (port d)).2.1, 1) = .empty) = true :=
  ⟨GateLevel.layerFree_named .cart "2DDWAVE".toList _ rfl, by decide, by decide, by unfold InBounds; decide, by unfold InBounds; decide,
    .inr (by decide), by decide, by decide +kernel⟩

/-- Wires `4` at (1, 1, 0) and `5` at (1, 1, 1) and wires `6` at (2, 1, 1) and `7` at (2, 1, 0) to which they lead; an input in the west
leads to `4` and one in the north to `5`, `6` leads to an output in the east and `7` to one in the south. -/
def swap : List GateLevel.Op :=
  [.createPi ⟨0, 1, 0, false⟩, .createPi ⟨1, 0, 0, false⟩, .createGate 2 [⟨0, 1, 0, false⟩] ⟨1, 1, 0, false⟩,
    .createGate 2 [⟨1, 0, 0, false⟩] ⟨1, 1, 1, false⟩, .createGate 2 [⟨1, 1, 0, false⟩] ⟨2, 1, 1, false⟩,
    .createGate 2 [⟨1, 1, 1, false⟩] ⟨2, 1, 0, false⟩, .createPo ⟨2, 1, 1, false⟩ ⟨3, 1, 0, false⟩,
    .createPo ⟨2, 1, 0, false⟩ ⟨2, 2, 0, false⟩]

/-- C59 (disagreement): without `hclear` there need not be a via. The library is applied without an exception to a layout in which
two connections between the same places change the layer in opposite directions. The only vias of the result are those that lead from
the northern input to the crossing layer and from there to the eastern output; between the places the wires continue in their
layers, so that the outputs are swapped. -/
theorem C59_qca_layer_swap :
    GateLevel.Valid ⟨3, 2, 1⟩ GateLevel.init swap ∧
    Connected ⟨3, 2, 1⟩ demoClk (GateLevel.run ⟨3, 2, 1⟩ GateLevel.init swap) 6 4 ∧
    (GateLevel.run ⟨3, 2, 1⟩ GateLevel.init swap).getTile 6 = ⟨2, 1, 1, false⟩ ∧
    (GateLevel.run ⟨3, 2, 1⟩ GateLevel.init swap).getTile 4 = ⟨1, 1, 0, false⟩ ∧
    (apply ⟨3, 2, 1⟩ demoClk (GateLevel.run ⟨3, 2, 1⟩ GateLevel.init swap) (fun _ => "")).any (fun s =>
      (∀ p ∈ s.modes, p.1 ∈ [((7, 5, 0) : CellPos), (7, 5, 1), (14, 7, 0), (14, 7, 1)]) ∧
      (∀ x ∈ [7, 8, 9, 10, 11, 12], s.getCellType (x, 7, 0) = .normal ∧ s.getCellType (x, 7, 1) = .normal)) = true :=
  ⟨⟨trivial, trivial, trivial, trivial, trivial, trivial, trivial, trivial, trivial⟩, .inl (by decide), by decide, by decide,
    by decide +kernel⟩

/-- C59 (disagreement): the post-layout optimization also takes input and output cells in the crossing layer for ends of wires. It
makes vias of them, connecting them to whatever is below, and overwrites input and output cells below them: this layout with two inputs
yields a cell-level layout with one. -/
theorem C59_qca_crossing_io_lost :
    let ops : List GateLevel.Op := [.createPi ⟨0, 0, 0, false⟩, .createPi ⟨0, 0, 1, false⟩,
      .createPo ⟨0, 0, 0, false⟩ ⟨1, 0, 0, false⟩, .createPo ⟨0, 0, 1, false⟩ ⟨1, 0, 1, false⟩]
    GateLevel.Valid ⟨1, 0, 1⟩ GateLevel.init ops ∧ (GateLevel.run ⟨1, 0, 1⟩ GateLevel.init ops).inputs = [2, 3] ∧
    (applyLibrary .cartesian (T := qca) (X := 5) (Y := 5) (GateLevel.run ⟨1, 0, 1⟩ GateLevel.init ops)
      (setUpAt ⟨1, 0, 1⟩ demoClk (GateLevel.run ⟨1, 0, 1⟩ GateLevel.init ops)) (fun _ => "")).any (fun s =>
        s.numPis = 2 ∧ s.getCellType (2, 2, 0) = .input) = true ∧
    (apply ⟨1, 0, 1⟩ demoClk (GateLevel.run ⟨1, 0, 1⟩ GateLevel.init ops) (fun _ => "")).any (fun s =>
      s.numPis = 1 ∧ s.getCellType (2, 2, 0) = .normal) = true :=
  ⟨⟨trivial, trivial, trivial, trivial, trivial⟩, by decide, by decide +kernel, by decide +kernel⟩

end Verif.Library.QcaOne
