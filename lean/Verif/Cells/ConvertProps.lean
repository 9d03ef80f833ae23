import Verif.Cells.ConvertLemmas
import Verif.Cells.CellProps
import Verif.Coordinates.Props

/-! # C42: normalizing layouts; C55: converting layouts between coordinate systems -/
namespace Verif.Cells

open Verif.Coordinates

variable {C : Type} [DecidableEq C] {T : Tech}

/-- The two-argument constructor and the components agree on non-negative values of 31 bits. -/
def Grid.Lawful (g : Grid C) : Prop :=
  ∀ a b : Int, 0 ≤ a → a < 2147483648 → 0 ≤ b → b < 2147483648 → g.x (g.mk2 a b) = a ∧ g.y (g.mk2 a b) = b

/-- The layout lies in the range of the coordinate type, and is no wider and higher than a 31-bit extent. -/
structure InRange (g : Grid C) (lyt : State C T) : Prop where
  max : ∀ c ∈ lyt.cells, g.x c ≤ g.max ∧ g.y c ≤ g.max
  extent : ∀ a ∈ lyt.cells, ∀ b ∈ lyt.cells, g.x a - g.x b < 2147483648 ∧ g.y a - g.y b < 2147483648

theorem C42_coordinate_types :
    cubeGrid.Lawful ∧ siqadGrid.Lawful ∧ offsetGrid.Lawful := by
  refine ⟨fun a b _ _ _ _ => ⟨rfl, rfl⟩, fun a b _ _ _ _ => ⟨rfl, rfl⟩, fun a b h1 h2 h3 h4 => ?_⟩
  simp only [offsetGrid, UCoord.mk3, BitVec.toNat_ofInt]
  omega

/-- The smallest components. -/
theorem normalize_offsets (g : Grid C) (lyt : State C T) (hr : InRange g lyt) (hne : lyt.cells ≠ []) :
    (∀ c ∈ lyt.cells, (offsets g lyt.cells).1 ≤ g.x c ∧ (offsets g lyt.cells).2 ≤ g.y c) ∧
    (∃ c ∈ lyt.cells, g.x c = (offsets g lyt.cells).1) ∧ (∃ c ∈ lyt.cells, g.y c = (offsets g lyt.cells).2) := by
  obtain ⟨_, h2, h3, h4⟩ := offsets_spec g lyt.cells (g.max, g.max)
  obtain ⟨c, hc⟩ := List.exists_mem_of_ne_nil _ hne
  have hm := hr.max c hc
  have hc2 := h2 c hc
  refine ⟨h2, ?_, ?_⟩
  · rcases h3 with h | h
    · refine ⟨c, hc, le_antisymm (hm.1.trans (le_of_eq h.symm)) hc2.1⟩
    · exact h
  · rcases h4 with h | h
    · refine ⟨c, hc, le_antisymm (hm.2.trans (le_of_eq h.symm)) hc2.2⟩
    · exact h

/-- C42, the part that holds for all layouts: normalizing moves the layout to the origin. There is one common offset,
made of the smallest components; the occupied positions of the result are the shifted positions of the cells *on layer
0*, and the smallest x and y are zero. Name and tile size are kept. -/
theorem C42_shift_partial (hT : T.Lawful) (g : Grid C) (hg : g.Lawful) (lyt : State C T) (h : Inv lyt)
    (hr : InRange g lyt) (hne : lyt.isEmpty = false) :
    ∃ ox oy : Int,
      (∀ d, (normalize g lyt).isEmptyCell d = false ↔
        ∃ c, lyt.isEmptyCell c = false ∧ d = g.mk2 (g.x c - ox) (g.y c - oy)) ∧
      (∀ d, (normalize g lyt).isEmptyCell d = false → 0 ≤ g.x d ∧ 0 ≤ g.y d) ∧
      (∃ d, (normalize g lyt).isEmptyCell d = false ∧ g.x d = 0) ∧
      (∃ d, (normalize g lyt).isEmptyCell d = false ∧ g.y d = 0) ∧
      (normalize g lyt).name = lyt.name ∧ (normalize g lyt).tileX = lyt.tileX ∧
      (normalize g lyt).tileY = lyt.tileY := by
  have hnil : lyt.cells ≠ [] := by
    intro e
    unfold State.isEmpty at hne
    unfold State.cells at e
    rw [List.map_eq_nil_iff] at e
    rw [e] at hne; simp at hne
  obtain ⟨h1, ⟨cx, hcx, ex⟩, ⟨cy, hcy, ey⟩⟩ := normalize_offsets g lyt hr hnil
  have hemp : ∀ c, lyt.isEmptyCell c = false ↔ c ∈ lyt.cells := by
    intro c
    rw [mem_cells h, ← Bool.not_eq_true]
    exact not_congr (hT.empty_iff _)
  have hocc : ∀ d, (normalize g lyt).isEmptyCell d = false ↔
      ∃ c ∈ lyt.cells, g.mk2 (g.x c - (offsets g lyt.cells).1) (g.y c - (offsets g lyt.cells).2) = d := by
    intro d
    rw [← (copy_numCells hT _ h lyt.name lyt.tileX lyt.tileY).2 d, ← Bool.not_eq_true]
    exact not_congr (hT.empty_iff _)
  have hxy : ∀ c ∈ lyt.cells,
      g.x (g.mk2 (g.x c - (offsets g lyt.cells).1) (g.y c - (offsets g lyt.cells).2)) =
        g.x c - (offsets g lyt.cells).1 ∧
      g.y (g.mk2 (g.x c - (offsets g lyt.cells).1) (g.y c - (offsets g lyt.cells).2)) =
        g.y c - (offsets g lyt.cells).2 := by
    intro c hc
    have e1 := hr.extent c hc cx hcx
    have e2 := hr.extent c hc cy hcy
    have := h1 c hc
    exact hg _ _ (by omega) (by omega) (by omega) (by omega)
  refine ⟨(offsets g lyt.cells).1, (offsets g lyt.cells).2, ?_, ?_, ?_, ?_, copy_attrs _ _ _⟩
  · intro d
    rw [hocc]
    constructor
    · rintro ⟨c, hc, e⟩; exact ⟨c, (hemp c).2 hc, e.symm⟩
    · rintro ⟨c, hc, e⟩; exact ⟨c, (hemp c).1 hc, e.symm⟩
  · intro d hd
    obtain ⟨c, hc, e⟩ := (hocc d).1 hd
    have := hxy c hc
    have := h1 c hc
    rw [← e]; omega
  · refine ⟨_, (hocc _).2 ⟨cx, hcx, rfl⟩, ?_⟩
    rw [(hxy cx hcx).1]; omega
  · refine ⟨_, (hocc _).2 ⟨cy, hcy, rfl⟩, ?_⟩
    rw [(hxy cy hcy).2]; omega

theorem shift_inj (g : Grid C) (hg : g.Lawful) (lyt : State C T) (hr : InRange g lyt) (a b : C) (ha : a ∈ lyt.cells)
    (hb : b ∈ lyt.cells)
    (e : g.mk2 (g.x a - (offsets g lyt.cells).1) (g.y a - (offsets g lyt.cells).2) =
      g.mk2 (g.x b - (offsets g lyt.cells).1) (g.y b - (offsets g lyt.cells).2)) : g.x a = g.x b ∧ g.y a = g.y b := by
  obtain ⟨h1, ⟨cx, hcx, ex⟩, ⟨cy, hcy, ey⟩⟩ := normalize_offsets g lyt hr (List.ne_nil_of_mem ha)
  have f : ∀ c ∈ lyt.cells,
      g.x (g.mk2 (g.x c - (offsets g lyt.cells).1) (g.y c - (offsets g lyt.cells).2)) =
        g.x c - (offsets g lyt.cells).1 ∧
      g.y (g.mk2 (g.x c - (offsets g lyt.cells).1) (g.y c - (offsets g lyt.cells).2)) =
        g.y c - (offsets g lyt.cells).2 := by
    intro c hc
    have e1 := hr.extent c hc cx hcx
    have e2 := hr.extent c hc cy hcy
    have := h1 c hc
    exact hg _ _ (by omega) (by omega) (by omega) (by omega)
  have fa := f a ha
  have fb := f b hb
  rw [e] at fa
  omega

/-- C42 under the condition it needs: if no two cells differ in the third component only, no cell is lost and every
cell keeps its type, mode and name. -/
theorem C42_cells_partial (hT : T.Lawful) (g : Grid C) (hg : g.Lawful) (lyt : State C T) (h : Inv lyt)
    (hr : InRange g lyt)
    (hflat : ∀ a b, lyt.isEmptyCell a = false → lyt.isEmptyCell b = false → g.x a = g.x b → g.y a = g.y b → a = b) :
    (normalize g lyt).numCells = lyt.numCells ∧
    ∃ ox oy : Int, ∀ c, lyt.isEmptyCell c = false →
      (normalize g lyt).getCellType (g.mk2 (g.x c - ox) (g.y c - oy)) = lyt.getCellType c ∧
      (normalize g lyt).getCellMode (g.mk2 (g.x c - ox) (g.y c - oy)) = lyt.getCellMode c ∧
      (normalize g lyt).getCellName (g.mk2 (g.x c - ox) (g.y c - oy)) = lyt.getCellName c := by
  have hemp : ∀ c, lyt.isEmptyCell c = false ↔ c ∈ lyt.cells := by
    intro c
    rw [mem_cells h, ← Bool.not_eq_true]
    exact not_congr (hT.empty_iff _)
  have hinj : ∀ a ∈ lyt.cells, ∀ b ∈ lyt.cells,
      g.mk2 (g.x a - (offsets g lyt.cells).1) (g.y a - (offsets g lyt.cells).2) =
      g.mk2 (g.x b - (offsets g lyt.cells).1) (g.y b - (offsets g lyt.cells).2) → a = b := by
    intro a ha b hb e
    have := shift_inj g hg lyt hr a b ha hb e
    exact hflat a b ((hemp a).2 ha) ((hemp b).2 hb) this.1 this.2
  refine ⟨?_, (offsets g lyt.cells).1, (offsets g lyt.cells).2, ?_⟩
  · refine (copy_numCells hT _ h lyt.name lyt.tileX lyt.tileY).1.trans ?_
    rw [Finset.card_image_of_injOn, State.cells, List.toFinset_card_of_nodup h.nodup]
    · simp [State.numCells]
    · intro a ha b hb e
      exact hinj a (by simpa using ha) b (by simpa using hb) e
  · intro c hc
    exact copy_get hT _ lyt lyt.name lyt.tileX lyt.tileY hinj c ((hemp c).1 hc)

/-- C42: how many cells are left in general: one for every pair of x and y that is occupied. -/
theorem C42_count (hT : T.Lawful) (g : Grid C) (hg : g.Lawful) (lyt : State C T) (h : Inv lyt) (hr : InRange g lyt) :
    (normalize g lyt).numCells = (lyt.cells.toFinset.image (fun c => (g.x c, g.y c))).card := by
  refine (copy_numCells hT _ h lyt.name lyt.tileX lyt.tileY).1.trans ?_
  have himg : lyt.cells.toFinset.image
      (fun c => g.mk2 (g.x c - (offsets g lyt.cells).1) (g.y c - (offsets g lyt.cells).2)) =
      (lyt.cells.toFinset.image (fun c => (g.x c, g.y c))).image
        (fun p => g.mk2 (p.1 - (offsets g lyt.cells).1) (p.2 - (offsets g lyt.cells).2)) := by
    rw [Finset.image_image]; rfl
  rw [himg, Finset.card_image_of_injOn]
  intro p hp q hq e
  simp only [Finset.coe_image, List.coe_toFinset, Set.mem_image, Set.mem_setOf_eq] at hp hq
  obtain ⟨a, ha, rfl⟩ := hp
  obtain ⟨b, hb, rfl⟩ := hq
  have := shift_inj g hg lyt hr a b ha hb e
  rw [Prod.mk.injEq]; exact this

/-- C42 is false: in SiQAD coordinates the two dots of one dimer row differ in the third component only, and one of
them is lost. -/
theorem C42_loses_siqad_cells :
    let lyt := run (new : State Siqad sidb)
      [.type (Siqad.mk3 3 1 false) SidbType.normal, .type (Siqad.mk3 3 1 true) SidbType.normal,
       .type (Siqad.mk3 4 1 true) SidbType.input]
    lyt.numCells = 3 ∧ (normalize siqadGrid lyt).numCells = 2 ∧
    -- the last cell was on sublattice 1; it is moved to sublattice 0
    (normalize siqadGrid lyt).getCellType (Siqad.mk3 1 0 true) = SidbType.empty ∧
    (normalize siqadGrid lyt).getCellType (Siqad.mk3 1 0 false) = SidbType.input := by decide

/-- C42 is false: in offset coordinates a QCA crossing loses one of its cells. -/
theorem C42_loses_crossings :
    let lyt := run (new : State UCoord qca)
      [.type (UCoord.mk3 2 2 0) QcaType.normal, .type (UCoord.mk3 2 2 1) QcaType.normal]
    lyt.numCells = 2 ∧ (normalize offsetGrid lyt).numCells = 1 := by decide

/-- A layout that meets the hypotheses of `C42_cells_partial`. -/
example :
    let lyt := run (new : State Cube qca)
      [.type (Cube.mk3 (-3) 5 0) QcaType.input, .type (Cube.mk3 (-2) 7 0) QcaType.output]
    (normalize cubeGrid lyt).numCells = 2 ∧
    (normalize cubeGrid lyt).getCellType (Cube.mk3 0 0 0) = QcaType.input ∧
    (normalize cubeGrid lyt).getCellType (Cube.mk3 1 2 0) = QcaType.output := by decide

/-! ## C55 -/

/-- All cells are live, on layer 0, and in rows that are 32-bit integers. -/
def GroundCube (lyt : State Cube T) : Prop :=
  ∀ c, lyt.isEmptyCell c = false → c.d = false ∧ c.z = 0 ∧ -2147483648 ≤ c.y ∧ c.y ≤ 2147483647

/-- All cells are live and in rows that are 32-bit integers when doubled. -/
def SmallSiqad (lyt : State Siqad T) : Prop :=
  ∀ c, lyt.isEmptyCell c = false → c.d = false ∧ -2147483648 ≤ 2 * c.y + (if c.z then 1 else 0) ∧
    2 * c.y + (if c.z then 1 else 0) ≤ 2147483647

theorem nonempty_iff (hT : T.Lawful) {lyt : State C T} (h : Inv lyt) (c : C) :
    lyt.isEmptyCell c = false ↔ c ∈ lyt.cells := by
  rw [mem_cells h, ← Bool.not_eq_true]
  exact not_congr (hT.empty_iff _)

/-- C55: converting a layout to SiQAD coordinates keeps every cell, with type, mode and name, at the position that
stands for the same lattice site, and adds none. -/
theorem C55_to_siqad (hT : T.Lawful) (lyt : State Cube T) (h : Inv lyt) (hg : GroundCube lyt) :
    (convertToSiqad lyt).numCells = lyt.numCells ∧
    (∀ c, lyt.isEmptyCell c = false →
      (convertToSiqad lyt).getCellType (toSiqadCoord c) = lyt.getCellType c ∧
      (convertToSiqad lyt).getCellMode (toSiqadCoord c) = lyt.getCellMode c ∧
      (convertToSiqad lyt).getCellName (toSiqadCoord c) = lyt.getCellName c) ∧
    (∀ d, (convertToSiqad lyt).isEmptyCell d = false → ∃ c, lyt.isEmptyCell c = false ∧
      d.d = false ∧ d.x = c.x ∧ 2 * d.y + (if d.z then 1 else 0) = c.y) := by
  have hinj : ∀ a ∈ lyt.cells, ∀ b ∈ lyt.cells, toSiqadCoord a = toSiqadCoord b → a = b := by
    intro a ha b hb e
    obtain ⟨a1, a2, a3, a4⟩ := hg a ((nonempty_iff hT h a).2 ha)
    obtain ⟨b1, b2, b3, b4⟩ := hg b ((nonempty_iff hT h b).2 hb)
    rw [← C04_cube_roundtrip a a1 a2 a3 a4, ← C04_cube_roundtrip b b1 b2 b3 b4, e]
  refine ⟨?_, ?_, ?_⟩
  · refine (copy_numCells hT _ h lyt.name lyt.tileX lyt.tileY).1.trans ?_
    rw [Finset.card_image_of_injOn, State.cells, List.toFinset_card_of_nodup h.nodup]
    · simp [State.numCells]
    · intro a ha b hb e
      exact hinj a (by simpa using ha) b (by simpa using hb) e
  · intro c hc
    exact copy_get hT _ lyt lyt.name lyt.tileX lyt.tileY hinj c ((nonempty_iff hT h c).1 hc)
  · intro d hd
    have hd' : (convertToSiqad lyt).getCellType d ≠ T.empty := by
      intro e; rw [State.isEmptyCell, e, (hT.empty_iff _).2 rfl] at hd; simp at hd
    obtain ⟨c, hc, e⟩ := ((copy_numCells hT _ h lyt.name lyt.tileX lyt.tileY).2 d).1 hd'
    have hm := C04_to_siqad_meaning c
    have hl := toSiqad_live c
    rw [e] at hm hl
    exact ⟨c, (nonempty_iff hT h c).2 hc, hl, hm⟩

/-- C55: converting to cube coordinates keeps every cell. -/
theorem C55_to_cube (hT : T.Lawful) (lyt : State Siqad T) (h : Inv lyt) (hg : SmallSiqad lyt) :
    (convertToCube lyt).numCells = lyt.numCells ∧
    (∀ c, lyt.isEmptyCell c = false →
      (convertToCube lyt).getCellType (Cube.mk3 c.x (2 * c.y + (if c.z then 1 else 0)) 0) = lyt.getCellType c ∧
      (convertToCube lyt).getCellMode (Cube.mk3 c.x (2 * c.y + (if c.z then 1 else 0)) 0) = lyt.getCellMode c ∧
      (convertToCube lyt).getCellName (Cube.mk3 c.x (2 * c.y + (if c.z then 1 else 0)) 0) = lyt.getCellName c) ∧
    (∀ d, (convertToCube lyt).isEmptyCell d = false → ∃ c, lyt.isEmptyCell c = false ∧
      d = Cube.mk3 c.x (2 * c.y + (if c.z then 1 else 0)) 0) := by
  have hinj : ∀ a ∈ lyt.cells, ∀ b ∈ lyt.cells, toFictionCoord a = toFictionCoord b → a = b := by
    intro a ha b hb e
    obtain ⟨a1, a2, a3⟩ := hg a ((nonempty_iff hT h a).2 ha)
    obtain ⟨b1, b2, b3⟩ := hg b ((nonempty_iff hT h b).2 hb)
    rw [← C04_siqad_roundtrip a a1 a2 a3, ← C04_siqad_roundtrip b b1 b2 b3, e]
  refine ⟨?_, ?_, ?_⟩
  · refine (copy_numCells hT _ h lyt.name lyt.tileX lyt.tileY).1.trans ?_
    rw [Finset.card_image_of_injOn, State.cells, List.toFinset_card_of_nodup h.nodup]
    · simp [State.numCells]
    · intro a ha b hb e
      exact hinj a (by simpa using ha) b (by simpa using hb) e
  · intro c hc
    obtain ⟨a1, a2, a3⟩ := hg c hc
    have := copy_get hT _ lyt lyt.name lyt.tileX lyt.tileY hinj c ((nonempty_iff hT h c).1 hc)
    rw [toFiction_inrange c a1 a2 a3] at this
    exact this
  · intro d hd
    have hd' : (convertToCube lyt).getCellType d ≠ T.empty := by
      intro e; rw [State.isEmptyCell, e, (hT.empty_iff _).2 rfl] at hd; simp at hd
    obtain ⟨c, hc, e⟩ := ((copy_numCells hT _ h lyt.name lyt.tileX lyt.tileY).2 d).1 hd'
    obtain ⟨a1, a2, a3⟩ := hg c ((nonempty_iff hT h c).2 hc)
    rw [toFiction_inrange c a1 a2 a3] at e
    exact ⟨c, (nonempty_iff hT h c).2 hc, e.symm⟩

theorem copy_inv (hT : T.Lawful) {D : Type} [DecidableEq D] (f : C → D) (lyt : State C T) (n : String) (x y : Nat) :
    Inv (copyCells f lyt (new n x y)) := fold_inv hT f lyt _ (inv_new hT n x y)

/-- C55: converting to SiQAD coordinates and back gives the same type to every position. -/
theorem C55_roundtrip (hT : T.Lawful) (lyt : State Cube T) (h : Inv lyt) (hg : GroundCube lyt) (c : Cube) :
    (convertToCube (convertToSiqad lyt)).getCellType c = lyt.getCellType c := by
  obtain ⟨_, h2, h3⟩ := C55_to_siqad hT lyt h hg
  have hi : Inv (convertToSiqad lyt) := copy_inv hT _ _ _ _ _
  have hs : SmallSiqad (convertToSiqad lyt) := by
    intro d hd
    obtain ⟨c, hc, e1, _, e2⟩ := h3 d hd
    obtain ⟨_, _, b3, b4⟩ := hg c hc
    rw [e2]; exact ⟨e1, b3, b4⟩
  obtain ⟨_, k2, k3⟩ := C55_to_cube hT _ hi hs
  have key : ∀ c, lyt.isEmptyCell c = false →
      (convertToCube (convertToSiqad lyt)).getCellType c = lyt.getCellType c := by
    intro c hc
    obtain ⟨a1, a2, a3, a4⟩ := hg c hc
    have t := h2 c hc
    have hne : (convertToSiqad lyt).isEmptyCell (toSiqadCoord c) = false := by
      unfold State.isEmptyCell; rw [t.1]; exact hc
    have t2 := (k2 _ hne).1
    obtain ⟨e1, e2, e3⟩ := hs _ hne
    rw [← toFiction_inrange _ e1 e2 e3, C04_cube_roundtrip c a1 a2 a3 a4] at t2
    rw [t2, t.1]
  by_cases hc : lyt.isEmptyCell c = false
  · exact key c hc
  · have hl : lyt.getCellType c = T.empty := (hT.empty_iff _).1 (by simpa [State.isEmptyCell] using hc)
    rw [hl]
    by_contra hne
    have hn : (convertToCube (convertToSiqad lyt)).isEmptyCell c = false := by
      rw [← Bool.not_eq_true]; exact fun e => hne ((hT.empty_iff _).1 e)
    obtain ⟨d, hd, ed⟩ := k3 c hn
    obtain ⟨c', hc', e1, ex, ey⟩ := h3 d hd
    obtain ⟨b1, b2, b3, b4⟩ := hg c' hc'
    have : c = c' := by
      rw [ed, ← ex.symm, ey]
      obtain ⟨d', z', y', x'⟩ := c'
      simp only at b1 b2; subst b1; subst b2
      simp [Cube.mk3, ex]
    rw [this] at hc
    exact hc hc'

/-- C55: and the other way round. -/
theorem C55_roundtrip_siqad (hT : T.Lawful) (lyt : State Siqad T) (h : Inv lyt) (hg : SmallSiqad lyt) (c : Siqad) :
    (convertToSiqad (convertToCube lyt)).getCellType c = lyt.getCellType c := by
  obtain ⟨_, h2, h3⟩ := C55_to_cube hT lyt h hg
  have hi : Inv (convertToCube lyt) := copy_inv hT _ _ _ _ _
  have hs : GroundCube (convertToCube lyt) := by
    intro d hd
    obtain ⟨c, hc, e⟩ := h3 d hd
    obtain ⟨_, b3, b4⟩ := hg c hc
    rw [e]; exact ⟨rfl, rfl, b3, b4⟩
  obtain ⟨_, k2, k3⟩ := C55_to_siqad hT _ hi hs
  by_cases hc : lyt.isEmptyCell c = false
  · obtain ⟨a1, a2, a3⟩ := hg c hc
    have t := (h2 c hc).1
    have hne : (convertToCube lyt).isEmptyCell (Cube.mk3 c.x (2 * c.y + (if c.z then 1 else 0)) 0) = false := by
      unfold State.isEmptyCell; rw [t]; exact hc
    have t2 := (k2 _ hne).1
    rw [← toFiction_inrange c a1 a2 a3, C04_siqad_roundtrip c a1 a2 a3] at t2
    rw [t2, toFiction_inrange c a1 a2 a3, t]
  · have hl : lyt.getCellType c = T.empty := (hT.empty_iff _).1 (by simpa [State.isEmptyCell] using hc)
    rw [hl]
    by_contra hne
    have hn : (convertToSiqad (convertToCube lyt)).isEmptyCell c = false := by
      rw [← Bool.not_eq_true]; exact fun e => hne ((hT.empty_iff _).1 e)
    obtain ⟨d, hd, e1, ex, ey⟩ := k3 c hn
    obtain ⟨c', hc', e'⟩ := h3 d hd
    obtain ⟨b1, b2, b3⟩ := hg c' hc'
    have : c = c' := by
      rw [e'] at ex ey
      obtain ⟨d', z', y', x'⟩ := c'
      obtain ⟨d2, z2, y2, x2⟩ := c
      simp only [Cube.mk3] at b1 e1 ex ey
      subst b1; subst e1; subst ex
      have : z2 = z' ∧ y2 = y' := by cases z2 <;> cases z' <;> simp at ey ⊢ <;> omega
      simp [this.1, this.2]
    rw [this] at hc
    exact hc hc'

/-- Layouts that meet the hypotheses: a history of assignments yields the invariant. -/
def demoCube : State Cube sidb := run new
  [.type (Cube.mk3 (-3) 5 0) SidbType.input, .type (Cube.mk3 2 (-7) 0) SidbType.output,
   .type (Cube.mk3 2 (-8) 0) SidbType.normal]

example : (convertToSiqad demoCube).getCellType (Siqad.mk3 2 (-4) true) = SidbType.output ∧
    (convertToSiqad demoCube).numCells = 3 ∧ Inv demoCube :=
  ⟨by decide, by decide, inv_run sidb_lawful (inv_new sidb_lawful _ _ _) _⟩

theorem run_dom (s : State C T) (ops : List (Op C T)) (P : C → Prop)
    (h : ∀ c t, Op.type c t ∈ ops → P c) (hT : T.Lawful) (c : C)
    (hne : (run (new s.name s.tileX s.tileY) ops).isEmptyCell c = false) : P c := by
  rw [State.isEmptyCell, C41_type hT, lastType] at hne
  cases he : lastEvent (typeEvent c) ops with
  | none => rw [he] at hne; simp [(hT.empty_iff _).2] at hne
  | some t =>
    have hm := List.mem_of_getLast? he
    rw [List.mem_filterMap] at hm
    obtain ⟨op, hop, e⟩ := hm
    cases op with
    | type k t' =>
      simp only [typeEvent] at e
      split_ifs at e with hk
      · rw [← hk]; exact h k t' hop
    | mode k m => simp [typeEvent] at e
    | name k m => simp [typeEvent] at e

example : GroundCube demoCube := by
  intro c hc
  refine run_dom new _ (fun c => c.d = false ∧ c.z = 0 ∧ -2147483648 ≤ c.y ∧ c.y ≤ 2147483647) ?_ sidb_lawful c hc
  intro c t hm
  simp only [List.mem_cons, Op.type.injEq, List.not_mem_nil, or_false] at hm
  rcases hm with ⟨rfl, _⟩ | ⟨rfl, _⟩ | ⟨rfl, _⟩ <;> decide

/-- C55 fails for offset coordinates: if some cell has a negative component the layout is normalized first, which
merges the two dots of a dimer row; four cells become two. -/
theorem C55_offset_loses_cells :
    let lyt := run (new : State Siqad sidb)
      [.type (Siqad.mk3 (-1) 0 false) SidbType.normal, .type (Siqad.mk3 (-1) 0 true) SidbType.normal,
       .type (Siqad.mk3 3 2 false) SidbType.normal, .type (Siqad.mk3 3 2 true) SidbType.normal]
    lyt.numCells = 4 ∧ (convertToOffset lyt).numCells = 2 := by decide

/-- C55 for offset coordinates, without negative components: no cell is lost. -/
theorem C55_to_offset_partial (hT : T.Lawful) (lyt : State Siqad T) (h : Inv lyt)
    (hg : ∀ c, lyt.isEmptyCell c = false → c.d = false ∧ 0 ≤ c.x ∧ c.x < 2147483648 ∧ 0 ≤ c.y ∧
      2 * c.y + (if c.z then 1 else 0) < 2147483648) :
    (convertToOffset lyt).numCells = lyt.numCells ∧
    (∀ c, lyt.isEmptyCell c = false →
      let d := UCoord.mk3 (BitVec.ofInt 31 c.x) (BitVec.ofInt 31 (2 * c.y + (if c.z then 1 else 0))) 0#1
      (convertToOffset lyt).getCellType d = lyt.getCellType c ∧
      (convertToOffset lyt).getCellMode d = lyt.getCellMode c ∧
      (convertToOffset lyt).getCellName d = lyt.getCellName c) := by
  have hno : lyt.cells.any (fun c => decide (c.x < 0) || decide (c.y < 0)) = false := by
    rw [List.any_eq_false]
    intro c hc
    have := hg c ((nonempty_iff hT h c).2 hc)
    simp only [Bool.or_eq_true, decide_eq_true_eq]
    omega
  have hconv : ∀ c ∈ lyt.cells, toOffsetCoord c =
      UCoord.mk3 (BitVec.ofInt 31 c.x) (BitVec.ofInt 31 (2 * c.y + (if c.z then 1 else 0))) 0#1 := by
    intro c hc
    obtain ⟨h1, _, _, h4, h5⟩ := hg c ((nonempty_iff hT h c).2 hc)
    unfold toOffsetCoord Siqad.zi int32Max int32Min
    simp only [h1, Bool.not_false, if_true]
    cases hz : c.z <;> simp only [hz, Bool.false_eq_true, if_true, if_false] at h5 ⊢ <;>
      rw [if_neg (by omega), if_neg (by omega), Int.mul_comm]
  have hinj : ∀ a ∈ lyt.cells, ∀ b ∈ lyt.cells, toOffsetCoord a = toOffsetCoord b → a = b := by
    intro a ha b hb e
    rw [hconv a ha, hconv b hb] at e
    obtain ⟨a1, a2, a3, a4, a5⟩ := hg a ((nonempty_iff hT h a).2 ha)
    obtain ⟨b1, b2, b3, b4, b5⟩ := hg b ((nonempty_iff hT h b).2 hb)
    simp only [UCoord.mk3, UCoord.mk.injEq, true_and] at e
    have e1 := congrArg BitVec.toNat e.1
    have e2 := congrArg BitVec.toNat e.2
    simp only [BitVec.toNat_ofInt] at e1 e2
    obtain ⟨da, za, ya, xa⟩ := a
    obtain ⟨db, zb, yb, xb⟩ := b
    simp only at *
    subst a1; subst b1
    have : xa = xb ∧ ya = yb ∧ za = zb := by
      cases za <;> cases zb <;> simp at * <;> omega
    simp [this]
  have heq : convertToOffset lyt = copyCells toOffsetCoord lyt (new lyt.name lyt.tileX lyt.tileY) := by
    unfold convertToOffset
    simp only [hno, Bool.false_eq_true, if_false]
  rw [heq]
  refine ⟨?_, ?_⟩
  · refine (copy_numCells hT _ h lyt.name lyt.tileX lyt.tileY).1.trans ?_
    rw [Finset.card_image_of_injOn, State.cells, List.toFinset_card_of_nodup h.nodup]
    · simp [State.numCells]
    · intro a ha b hb e
      exact hinj a (by simpa using ha) b (by simpa using hb) e
  · intro c hc
    have := copy_get hT _ lyt lyt.name lyt.tileX lyt.tileY hinj c ((nonempty_iff hT h c).1 hc)
    rw [hconv c ((nonempty_iff hT h c).1 hc)] at this
    exact this

end Verif.Cells
