import Verif.Layouts.BoundingBox
import Verif.Defects.AnalysisFacts
import Verif.Coordinates.Props
import Verif.GateLevel.Props

/-!
# C85: bounding boxes are the smallest ones
-/
namespace Verif.BoundingBox

open Verif.Coordinates Verif.Cells Verif.Layouts

/-! ## Specification -/

/-- The box contains all the points, and each of its four sides touches one: it is the smallest such box. -/
structure Tight (P : Int × Int → Prop) (b : Box) : Prop where
  inside : ∀ p, P p → b.minX ≤ p.1 ∧ p.1 ≤ b.maxX ∧ b.minY ≤ p.2 ∧ p.2 ≤ b.maxY
  west : ∃ p, P p ∧ p.1 = b.minX
  east : ∃ p, P p ∧ p.1 = b.maxX
  north : ∃ p, P p ∧ p.2 = b.minY
  south : ∃ p, P p ∧ p.2 = b.maxY

/-! ## Facts -/

/-- The point is representable. -/
def InLimits (l : Limits) (p : Int × Int) : Prop := l.lo ≤ p.1 ∧ p.1 ≤ l.hi ∧ l.lo ≤ p.2 ∧ p.2 ≤ l.hi

theorem fold_tight (l : Limits) (pts : List (Int × Int)) (hne : pts ≠ []) (hl : ∀ p ∈ pts, InLimits l p) :
    Tight (· ∈ pts) (pts.foldl update (start l)) := by
  induction pts using List.reverseRecOn with
  | nil => exact absurd rfl hne
  | append_singleton ps q ih =>
    rw [List.foldl_append, List.foldl_cons, List.foldl_nil]
    have hq := hl q (by simp)
    unfold InLimits at hq
    by_cases hps : ps = []
    · subst hps
      simp only [List.foldl_nil, List.nil_append, List.mem_singleton, update, start]
      constructor
      · rintro p rfl; dsimp only; omega
      all_goals (refine ⟨q, rfl, ?_⟩; dsimp only; omega)
    · have h := ih hps (fun p hp => hl p (by simp [hp]))
      generalize ps.foldl update (start l) = b at h
      simp only [update]
      constructor
      · intro p hp
        rcases List.mem_append.1 hp with hp | hp
        · have := h.inside p hp
          dsimp only
          omega
        · rw [List.mem_singleton] at hp
          subst hp
          dsimp only
          omega
      · obtain ⟨p, hp, e⟩ := h.west
        by_cases hc : q.1 < b.minX
        · exact ⟨q, by simp, by dsimp only; omega⟩
        · exact ⟨p, by simp [hp], by dsimp only; omega⟩
      · obtain ⟨p, hp, e⟩ := h.east
        by_cases hc : b.maxX < q.1
        · exact ⟨q, by simp, by dsimp only; omega⟩
        · exact ⟨p, by simp [hp], by dsimp only; omega⟩
      · obtain ⟨p, hp, e⟩ := h.north
        by_cases hc : q.2 < b.minY
        · exact ⟨q, by simp, by dsimp only; omega⟩
        · exact ⟨p, by simp [hp], by dsimp only; omega⟩
      · obtain ⟨p, hp, e⟩ := h.south
        by_cases hc : b.maxY < q.2
        · exact ⟨q, by simp, by dsimp only; omega⟩
        · exact ⟨p, by simp [hp], by dsimp only; omega⟩

/-- There are no defects. -/
def noDefects {C : Type} : Option (List C) → Bool
  | none => true
  | some d => d.length == 0

theorem Tight.congr {P Q : Int × Int → Prop} {b : Box} (h : Tight P b) (e : ∀ p, P p ↔ Q p) : Tight Q b := by
  have : P = Q := funext (fun p => propext (e p))
  rw [← this]; exact h

/-! ## C85 -/

section Cells
variable {C : Type} [DecidableEq C] {T : Tech}

/-- **C85** for cell-level layouts with other than SiQAD coordinates, with and without defects: if the layout has a non-empty
cell or a defect, its bounding box is the smallest box around all of them; otherwise it is the point `(0, 0)`. -/
theorem C85_cells (hT : T.Lawful) (l : Limits) (pos : C → Int × Int) (s : State C T) (h : Inv s) (defects : Option (List C))
    (hr : ∀ c, s.isEmptyCell c = false ∨ c ∈ defects.getD [] → InLimits l (pos c)) :
    ((∃ c, s.isEmptyCell c = false ∨ c ∈ defects.getD []) →
      Tight (fun p => ∃ c, (s.isEmptyCell c = false ∨ c ∈ defects.getD []) ∧ p = pos c) (cellBox l pos s defects)) ∧
    ((¬ ∃ c, s.isEmptyCell c = false ∨ c ∈ defects.getD []) → cellBox l pos s defects = ⟨0, 0, 0, 0⟩) := by
  have hcell : ∀ c, c ∈ s.cells.filter (fun c => !s.isEmptyCell c) ↔ s.isEmptyCell c = false := by
    intro c
    rw [List.mem_filter]
    constructor
    · rintro ⟨-, h⟩; simpa using h
    · intro hc
      refine ⟨(mem_cells h c).2 (fun e => ?_), by simp [hc]⟩
      unfold State.isEmptyCell at hc
      rw [e, (hT.1 _).2 rfl] at hc
      cases hc
  have hempty : s.isEmpty = true ↔ ∀ c, s.isEmptyCell c = true := by
    constructor
    · intro he c
      by_contra hc
      have := (List.mem_filter.1 ((hcell c).2 (by simpa using hc))).1
      unfold State.isEmpty at he
      rw [List.isEmpty_iff] at he
      unfold State.cells at this
      rw [he] at this
      simp at this
    · intro he
      by_contra hc
      unfold State.isEmpty at hc
      rw [List.isEmpty_iff] at hc
      obtain ⟨p, l', hp⟩ := List.exists_cons_of_ne_nil hc
      have hm : p.1 ∈ s.cells := by unfold State.cells; rw [hp]; simp
      have := (mem_cells h p.1).1 hm
      have h2 := he p.1
      unfold State.isEmptyCell at h2
      exact this ((hT.1 _).1 h2)
  -- the box is a fold over all points
  have hfold : cellBox l pos s defects =
      if s.isEmpty && noDefects defects then ⟨0, 0, 0, 0⟩
      else (((s.cells.filter (fun c => !s.isEmptyCell c)) ++ defects.getD []).map pos).foldl update (start l) := by
    unfold cellBox
    cases defects with
    | none => simp [List.foldl_map, noDefects]
    | some d => simp [List.foldl_map, noDefects]
  have hcond : (s.isEmpty && noDefects defects) = true ↔
      ¬ ∃ c, s.isEmptyCell c = false ∨ c ∈ defects.getD [] := by
    rw [Bool.and_eq_true, hempty]
    cases defects with
    | none => simp [noDefects]
    | some d =>
      cases d with
      | nil => simp [noDefects]
      | cons a d =>
        simp only [noDefects, List.length_cons, Option.getD_some]
        constructor
        · rintro ⟨-, h⟩; simp at h
        · intro h; exact absurd ⟨a, Or.inr (by simp)⟩ h
  constructor
  · intro hex
    rw [hfold, if_neg (fun hc => (hcond.1 hc) hex)]
    refine Tight.congr (fold_tight l _ ?_ ?_) (fun p => ?_)
    · obtain ⟨c, hc⟩ := hex
      refine List.ne_nil_of_mem (List.mem_map_of_mem (f := pos) (a := c) ?_)
      rw [List.mem_append]
      exact hc.imp (hcell c).2 id
    · intro p hp
      obtain ⟨c, hc, rfl⟩ := List.mem_map.1 hp
      rw [List.mem_append] at hc
      exact hr c (hc.imp (hcell c).1 id)
    · rw [List.mem_map]
      constructor
      · rintro ⟨c, hc, rfl⟩
        rw [List.mem_append] at hc
        exact ⟨c, hc.imp (hcell c).1 id, rfl⟩
      · rintro ⟨c, hc, rfl⟩
        exact ⟨c, by rw [List.mem_append]; exact hc.imp (hcell c).2 id, rfl⟩
  · intro hno
    rw [hfold, if_pos (hcond.2 hno)]

end Cells

/-- **C85** for gate-level layouts whose occupied tiles are within the aspect ratio: the bounding box is the smallest box around
the occupied tiles of both layers, or the point `(0, 0)` if there is none. -/
theorem C85_gates (m : Dim) (ops : List GateLevel.Op) (hv : GateLevel.Valid m GateLevel.init ops)
    (hX : m.X ≤ 2147483647) (hY : m.Y ≤ 2147483647)
    (gates wires : Finset Coord)
    (hg : ∀ t, t ∈ gates ↔ t.d = false ∧ (GateLevel.run m GateLevel.init ops).isEmptyTile t = false ∧
      (GateLevel.run m GateLevel.init ops).isWireTile t = false)
    (hw : ∀ t, t ∈ wires ↔ t.d = false ∧ (GateLevel.run m GateLevel.init ops).isEmptyTile t = false ∧
      (GateLevel.run m GateLevel.init ops).isWireTile t = true)
    (hfew : gates.card + wires.card < 4294967296)
    (hin : ∀ t : Coord, t.d = false → (GateLevel.run m GateLevel.init ops).isEmptyTile t = false →
      t.x ≤ m.X ∧ t.y ≤ m.Y ∧ t.z ≤ m.Z) :
    let s := GateLevel.run m GateLevel.init ops
    ((∃ t : Coord, t.d = false ∧ s.isEmptyTile t = false) →
      Tight (fun p => ∃ t : Coord, (t.d = false ∧ s.isEmptyTile t = false) ∧ p = ((t.x : Int), (t.y : Int))) (gateBox m s)) ∧
    ((¬ ∃ t : Coord, t.d = false ∧ s.isEmptyTile t = false) → gateBox m s = ⟨0, 0, 0, 0⟩) := by
  intro s
  obtain ⟨h1, h2⟩ := GateLevel.C17_counts m ops hv gates wires hg hw
  have hmem : ∀ t : Coord, t ∈ (Defects.tiles m).filter (fun t => !s.isEmptyTile t) ↔ t.d = false ∧ s.isEmptyTile t = false := by
    intro t
    rw [List.mem_filter, Defects.mem_tiles]
    constructor
    · rintro ⟨h, h'⟩; exact ⟨h.1, by simpa using h'⟩
    · rintro ⟨hd, he⟩
      exact ⟨⟨hd, hin t hd he⟩, by simp [he]⟩
  have hemp : gatesEmpty s = true ↔ ¬ ∃ t : Coord, t.d = false ∧ s.isEmptyTile t = false := by
    unfold gatesEmpty
    rw [beq_iff_eq, show s.numGates = _ from h1, show s.numWires = _ from h2]
    have hz : (BitVec.ofNat 32 gates.card + BitVec.ofNat 32 wires.card = 0) ↔ gates.card + wires.card = 0 := by
      rw [← BitVec.ofNat_add, ← BitVec.toNat_inj]
      simp only [BitVec.toNat_ofNat]
      have : (0 : BitVec 32).toNat = 0 := rfl
      rw [this]
      have e : 2 ^ 32 = 4294967296 := rfl
      rw [e, Nat.mod_eq_of_lt hfew]
    rw [hz]
    constructor
    · rintro hc ⟨t, hd, he⟩
      have h0 : gates = ∅ := Finset.card_eq_zero.1 (by omega)
      have h0' : wires = ∅ := Finset.card_eq_zero.1 (by omega)
      by_cases hwt : (GateLevel.run m GateLevel.init ops).isWireTile t = true
      · have := (hw t).2 ⟨hd, he, hwt⟩
        rw [h0'] at this
        simp at this
      · have := (hg t).2 ⟨hd, he, by simpa using hwt⟩
        rw [h0] at this
        simp at this
    · intro hno
      have h0 : gates = ∅ := by
        rw [Finset.eq_empty_iff_forall_notMem]
        intro t ht
        have := (hg t).1 ht
        exact hno ⟨t, this.1, this.2.1⟩
      have h0' : wires = ∅ := by
        rw [Finset.eq_empty_iff_forall_notMem]
        intro t ht
        have := (hw t).1 ht
        exact hno ⟨t, this.1, this.2.1⟩
      rw [h0, h0']; rfl
  constructor
  · intro hex
    unfold gateBox
    rw [if_neg (fun hc => (hemp.1 hc) hex)]
    have hfold : ((Defects.tiles m).filter (fun t => !s.isEmptyTile t)).foldl
        (fun b t => update b ((t.x : Int), (t.y : Int))) (start offsetLimits)
        = (((Defects.tiles m).filter (fun t => !s.isEmptyTile t)).map (fun t => ((t.x : Int), (t.y : Int)))).foldl update
          (start offsetLimits) := by rw [List.foldl_map]
    rw [hfold]
    refine Tight.congr (fold_tight offsetLimits _ ?_ ?_) (fun p => ?_)
    · obtain ⟨t, ht⟩ := hex
      exact List.ne_nil_of_mem (List.mem_map_of_mem (f := fun t : Coord => ((t.x : Int), (t.y : Int))) ((hmem t).2 ht))
    · intro p hp
      obtain ⟨t, ht, rfl⟩ := List.mem_map.1 hp
      have ht := (hmem t).1 ht
      have := hin t ht.1 ht.2
      unfold InLimits offsetLimits
      dsimp only
      omega
    · rw [List.mem_map]
      constructor
      · rintro ⟨t, ht, rfl⟩; exact ⟨t, (hmem t).1 ht, rfl⟩
      · rintro ⟨t, ht, rfl⟩; exact ⟨t, (hmem t).2 ht, rfl⟩
  · intro hno
    unfold gateBox
    rw [if_pos (hemp.2 hno)]

/-! ## SiQAD coordinates -/

/-- The row of a SiQAD coordinate: dimers have two rows. -/
def row (c : Siqad) : Int := 2 * c.y + (if c.z then 1 else 0)

/-- Column and row of the corners. -/
def SiqadBox.toBox (b : SiqadBox) : Box := ⟨b.min.x, row b.min, b.max.x, row b.max⟩

/-- A live coordinate whose column and row are 32-bit numbers. -/
def Fit (c : Siqad) : Prop :=
  c.d = false ∧ -2147483648 ≤ c.x ∧ c.x ≤ 2147483647 ∧ -2147483648 ≤ row c ∧ row c ≤ 2147483647

theorem toFiction_fit {c : Siqad} (h : Fit c) : toFictionCoord c = Cube.mk3 c.x (row c) 0 := by
  obtain ⟨hd, -, -, h1, h2⟩ := h
  exact toFiction_inrange c hd h1 h2

theorem toSiqad_spec (k : Cube) : (toSiqadCoord k).x = k.x ∧ row (toSiqadCoord k) = k.y ∧ (toSiqadCoord k).d = false := by
  exact ⟨(C04_to_siqad_meaning k).1, (C04_to_siqad_meaning k).2, toSiqad_live k⟩

/-- The start, or a box of representable coordinates. -/
def Good (b : SiqadBox) : Prop := b = startSiqad ∨ (Fit b.min ∧ Fit b.max)

theorem update_siqad {b : SiqadBox} (hb : Good b) {c : Siqad} (hc : Fit c) :
    Good (updateSiqad b c) ∧ Fit (updateSiqad b c).min ∧ Fit (updateSiqad b c).max ∧
    (updateSiqad b c).toBox = update (if b = startSiqad then start cubeLimits else b.toBox) (c.x, row c) := by
  have key : ∀ lo hi : Cube, lo = toFictionCoord b.min → hi = toFictionCoord b.max →
      -2147483648 ≤ lo.x → lo.x ≤ 2147483647 → -2147483648 ≤ lo.y → lo.y ≤ 2147483647 →
      -2147483648 ≤ hi.x → hi.x ≤ 2147483647 → -2147483648 ≤ hi.y → hi.y ≤ 2147483647 →
      Fit (updateSiqad b c).min ∧ Fit (updateSiqad b c).max ∧
      (updateSiqad b c).toBox = update ⟨lo.x, lo.y, hi.x, hi.y⟩ (c.x, row c) := by
    intro lo hi hlo hhi h1 h2 h3 h4 h5 h6 h7 h8
    obtain ⟨hd, c1, c2, c3, c4⟩ := id hc
    unfold updateSiqad
    rw [← hlo, ← hhi, toFiction_fit hc]
    simp only [Cube.mk3]
    have s1 := toSiqad_spec { lo with x := min lo.x c.x, y := min lo.y (row c) }
    have s2 := toSiqad_spec { hi with x := max hi.x c.x, y := max hi.y (row c) }
    dsimp only at s1 s2
    refine ⟨⟨s1.2.2, ?_, ?_, ?_, ?_⟩, ⟨s2.2.2, ?_, ?_, ?_, ?_⟩, ?_⟩
    · rw [s1.1]; omega
    · rw [s1.1]; omega
    · rw [s1.2.1]; omega
    · rw [s1.2.1]; omega
    · rw [s2.1]; omega
    · rw [s2.1]; omega
    · rw [s2.2.1]; omega
    · rw [s2.2.1]; omega
    · unfold SiqadBox.toBox update
      dsimp only
      rw [s1.1, s1.2.1, s2.1, s2.2.1]
  by_cases hs : b = startSiqad
  · rw [if_pos hs]
    have hlo : toFictionCoord b.min = Cube.mk3 2147483647 2147483647 0 := by rw [hs]; decide
    have hhi : toFictionCoord b.max = Cube.mk3 (-2147483648) (-2147483648) 0 := by rw [hs]; decide
    obtain ⟨k1, k2, k3⟩ := key _ _ hlo.symm hhi.symm (by decide) (by decide) (by decide) (by decide) (by decide) (by decide)
      (by decide) (by decide)
    exact ⟨Or.inr ⟨k1, k2⟩, k1, k2, k3⟩
  · rw [if_neg hs]
    obtain ⟨f1, f2⟩ := hb.resolve_left hs
    obtain ⟨k1, k2, k3⟩ := key _ _ (toFiction_fit f1).symm (toFiction_fit f2).symm f1.2.1 f1.2.2.1 f1.2.2.2.1 f1.2.2.2.2
      f2.2.1 f2.2.2.1 f2.2.2.2.1 f2.2.2.2.2
    exact ⟨Or.inr ⟨k1, k2⟩, k1, k2, k3⟩

theorem start_not_fit : ¬ Fit startSiqad.min := by
  unfold Fit row startSiqad; decide

theorem fold_siqad (cs : List Siqad) (hne : cs ≠ []) (hf : ∀ c ∈ cs, Fit c) :
    Fit (cs.foldl updateSiqad startSiqad).min ∧ Fit (cs.foldl updateSiqad startSiqad).max ∧
    (cs.foldl updateSiqad startSiqad).toBox = (cs.map (fun c => (c.x, row c))).foldl update (start cubeLimits) := by
  induction cs using List.reverseRecOn with
  | nil => exact absurd rfl hne
  | append_singleton l c ih =>
    rw [List.foldl_append, List.map_append, List.foldl_append]
    simp only [List.foldl_cons, List.foldl_nil, List.map_cons, List.map_nil]
    have hc := hf c (by simp)
    by_cases hl : l = []
    · subst hl
      simp only [List.foldl_nil, List.map_nil]
      obtain ⟨-, h1, h2, h3⟩ := update_siqad (b := startSiqad) (Or.inl rfl) hc
      rw [if_pos rfl] at h3
      exact ⟨h1, h2, h3⟩
    · obtain ⟨f1, f2, e⟩ := ih hl (fun c hc => hf c (by simp [hc]))
      obtain ⟨-, h1, h2, h3⟩ := update_siqad (Or.inr ⟨f1, f2⟩) hc
      have hns : l.foldl updateSiqad startSiqad ≠ startSiqad := fun e => start_not_fit (e ▸ f1)
      rw [if_neg hns, e] at h3
      exact ⟨h1, h2, h3⟩

theorem siqad_tight (cs : List Siqad) (hne : cs ≠ []) (hf : ∀ c ∈ cs, Fit c) :
    Tight (fun p => ∃ c ∈ cs, p = (c.x, row c)) (cs.foldl updateSiqad startSiqad).toBox := by
  obtain ⟨-, -, e⟩ := fold_siqad cs hne hf
  rw [e]
  refine Tight.congr (fold_tight cubeLimits _ ?_ ?_) (fun p => ?_)
  · obtain ⟨c, l, rfl⟩ := List.exists_cons_of_ne_nil hne
    simp
  · intro p hp
    obtain ⟨c, hc, rfl⟩ := List.mem_map.1 hp
    obtain ⟨-, h1, h2, h3, h4⟩ := hf c hc
    exact ⟨h1, h2, h3, h4⟩
  · rw [List.mem_map]
    constructor
    · rintro ⟨c, hc, rfl⟩; exact ⟨c, hc, rfl⟩
    · rintro ⟨c, hc, rfl⟩; exact ⟨c, hc, rfl⟩

section Siqad
variable {T : Tech}

theorem cells_iff (hT : T.Lawful) {s : State Siqad T} (h : Inv s) (c : Siqad) : c ∈ s.cells ↔ s.isEmptyCell c = false := by
  rw [mem_cells h]
  unfold State.isEmptyCell
  constructor
  · intro hc
    by_contra he
    exact hc ((hT.1 _).1 (by simpa using he))
  · intro he e
    rw [e, (hT.1 _).2 rfl] at he
    cases he

/-- **C85** for layouts with SiQAD coordinates that carry no defects: the bounding box is the smallest box, by columns and
rows, around the non-empty cells. -/
theorem C85_siqad (hT : T.Lawful) (s : State Siqad T) (h : Inv s) (hr : ∀ c, s.isEmptyCell c = false → Fit c)
    (hex : ∃ c, s.isEmptyCell c = false) :
    Tight (fun p => ∃ c, s.isEmptyCell c = false ∧ p = (c.x, row c)) (siqadBox s none).toBox := by
  obtain ⟨c, hc⟩ := hex
  have hm := (cells_iff hT h c).2 hc
  have hne : s.cells ≠ [] := List.ne_nil_of_mem hm
  unfold siqadBox
  have he : s.isEmpty = false := by
    unfold State.isEmpty
    by_contra hcon
    have : s.types = [] := by simpa using hcon
    unfold State.cells at hne
    rw [this] at hne
    exact hne rfl
  simp only [he, Bool.false_and, Bool.false_eq_true, if_false]
  refine Tight.congr (siqad_tight s.cells hne (fun c hc => hr c ((cells_iff hT h c).1 hc))) (fun p => ?_)
  constructor
  · rintro ⟨c, hc, rfl⟩; exact ⟨c, (cells_iff hT h c).1 hc, rfl⟩
  · rintro ⟨c, hc, rfl⟩; exact ⟨c, (cells_iff hT h c).2 hc, rfl⟩

/-- **C85** for SiQAD layouts with cells and defects: the box contains all of them, its columns are the smallest possible and
its rows reach at most one row too far in each direction, within the outermost dimers. Missing: the smallest box, see
`C85_false_siqad_defects`. -/
theorem C85_siqad_defects_partial (hT : T.Lawful) (s : State Siqad T) (h : Inv s) (d : List Siqad)
    (hr : ∀ c, s.isEmptyCell c = false ∨ c ∈ d → Fit c) (hex : ∃ c, s.isEmptyCell c = false) :
    ∃ b, Tight (fun p => ∃ c, (s.isEmptyCell c = false ∨ c ∈ d) ∧ p = (c.x, row c)) b ∧
      (siqadBox s (some d)).toBox.minX = b.minX ∧ (siqadBox s (some d)).toBox.maxX = b.maxX ∧
      (siqadBox s (some d)).toBox.minY ≤ b.minY ∧ b.minY ≤ (siqadBox s (some d)).toBox.minY + 1 ∧
      b.maxY ≤ (siqadBox s (some d)).toBox.maxY ∧ (siqadBox s (some d)).toBox.maxY ≤ b.maxY + 1 := by
  obtain ⟨c, hc⟩ := hex
  have hm := (cells_iff hT h c).2 hc
  have hne : s.cells ≠ [] := List.ne_nil_of_mem hm
  have he : s.isEmpty = false := by
    unfold State.isEmpty
    by_contra hcon
    have : s.types = [] := by simpa using hcon
    unfold State.cells at hne
    rw [this] at hne
    exact hne rfl
  have hall : ∀ c ∈ s.cells ++ d, Fit c := by
    intro c hc
    rcases List.mem_append.1 hc with hc | hc
    · exact hr c (Or.inl ((cells_iff hT h c).1 hc))
    · exact hr c (Or.inr hc)
  have hcells : ∀ c ∈ s.cells, Fit c := fun c hc => hall c (by simp [hc])
  have t1 := siqad_tight s.cells hne hcells
  have hne2 : s.cells ++ d ≠ [] := by simp [hne]
  have t2 := siqad_tight (s.cells ++ d) hne2 hall
  obtain ⟨f1, f2, -⟩ := fold_siqad s.cells hne hcells
  obtain ⟨g1, g2, -⟩ := fold_siqad (s.cells ++ d) hne2 hall
  rw [List.foldl_append] at t2 g1 g2
  refine ⟨_, Tight.congr t2 (fun p => ?_), ?_⟩
  · constructor
    · rintro ⟨c, hc, rfl⟩
      refine ⟨c, ?_, rfl⟩
      rcases List.mem_append.1 hc with hc | hc
      · exact Or.inl ((cells_iff hT h c).1 hc)
      · exact Or.inr hc
    · rintro ⟨c, hc, rfl⟩
      exact ⟨c, List.mem_append.2 (hc.imp (cells_iff hT h c).2 id), rfl⟩
  · -- the second box contains the first
    have hsub : ∀ p : Int × Int, (∃ c ∈ s.cells, p = (c.x, row c)) → ∃ c ∈ s.cells ++ d, p = (c.x, row c) := by
      rintro p ⟨c, hc, e⟩; exact ⟨c, by simp [hc], e⟩
    obtain ⟨pw, hpw, ew⟩ := t1.west
    obtain ⟨pe, hpe, ee⟩ := t1.east
    obtain ⟨pn, hpn, en⟩ := t1.north
    obtain ⟨ps, hps, es⟩ := t1.south
    have iw := (t2.inside pw (hsub _ hpw)).1
    have ie := (t2.inside pe (hsub _ hpe)).2.1
    have inn := (t2.inside pn (hsub _ hpn)).2.2.1
    have is := (t2.inside ps (hsub _ hps)).2.2.2
    rw [ew] at iw
    rw [ee] at ie
    rw [en] at inn
    rw [es] at is
    unfold siqadBox
    simp only [he, Bool.false_and, Bool.false_eq_true, if_false]
    generalize s.cells.foldl updateSiqad startSiqad = b at *
    generalize d.foldl updateSiqad b = e at *
    unfold SiqadBox.toBox row at *
    dsimp only [Siqad.mk3] at *
    obtain ⟨⟨_, bz, by', bx⟩, ⟨_, Bz, By, Bx⟩⟩ := b
    obtain ⟨⟨_, ez, ey, ex⟩, ⟨_, Ez, Ey, Ex⟩⟩ := e
    dsimp only at *
    refine ⟨by omega, by omega, ?_, ?_, ?_, ?_⟩
    · cases bz <;> cases ez <;> simp only [Bool.and_true, Bool.and_false, Bool.true_and, Bool.false_and, if_true, if_false, Bool.false_eq_true] at * <;> omega
    · cases bz <;> cases ez <;> simp only [Bool.and_true, Bool.and_false, Bool.true_and, Bool.false_and, if_true, if_false, Bool.false_eq_true] at * <;> omega
    · cases Bz <;> cases Ez <;> simp only [Bool.or_true, Bool.or_false, Bool.true_or, Bool.false_or, if_true, if_false, Bool.false_eq_true] at * <;> omega
    · cases Bz <;> cases Ez <;> simp only [Bool.or_true, Bool.or_false, Bool.true_or, Bool.false_or, if_true, if_false, Bool.false_eq_true] at * <;> omega

theorem cells_nil_iff (hT : T.Lawful) {s : State Siqad T} (h : Inv s) :
    s.isEmpty = true ↔ ∀ c, s.isEmptyCell c = true := by
  have hnil : s.isEmpty = true ↔ s.cells = [] := by
    unfold State.isEmpty State.cells
    rw [List.isEmpty_iff, List.map_eq_nil_iff]
  rw [hnil, List.eq_nil_iff_forall_not_mem]
  refine forall_congr' (fun c => ?_)
  rw [cells_iff hT h]
  simp

/-- **C85** for SiQAD layouts with defects only: the box is the smallest one around the defects. -/
theorem C85_siqad_only_defects (hT : T.Lawful) (s : State Siqad T) (h : Inv s) (d : List Siqad) (hr : ∀ c ∈ d, Fit c)
    (hno : ∀ c, s.isEmptyCell c = true) (hd : d ≠ []) :
    Tight (fun p => ∃ c ∈ d, p = (c.x, row c)) (siqadBox s (some d)).toBox := by
  have he := (cells_nil_iff hT h).2 hno
  have hcells : s.cells = [] := by
    rw [List.eq_nil_iff_forall_not_mem]
    intro c hc
    rw [cells_iff hT h, hno c] at hc
    cases hc
  have t := siqad_tight d hd hr
  obtain ⟨g1, g2, -⟩ := fold_siqad d hd hr
  have hlen : (d.length == 0) = false := by
    rw [beq_eq_false_iff_ne]; exact fun e => hd (List.eq_nil_of_length_eq_zero e)
  have heq : siqadBox s (some d) = d.foldl updateSiqad startSiqad := by
    unfold siqadBox
    simp only [he, hlen, Bool.true_and, Bool.false_eq_true, if_false, hcells, List.foldl_nil]
    generalize d.foldl updateSiqad startSiqad = e at *
    obtain ⟨⟨ed, ez, ey, ex⟩, ⟨Ed, Ez, Ey, Ex⟩⟩ := e
    simp only [Fit, row] at g1 g2
    obtain ⟨rfl, h1, h2, h3, h4⟩ := g1
    obtain ⟨rfl, k1, k2, k3, k4⟩ := g2
    have b1 : (if ez = true then (1 : Int) else 0) = 0 ∨ (if ez = true then (1 : Int) else 0) = 1 := by cases ez <;> simp
    have b2 : (if Ez = true then (1 : Int) else 0) = 0 ∨ (if Ez = true then (1 : Int) else 0) = 1 := by cases Ez <;> simp
    simp only [startSiqad, Siqad.mk3, int32Max, int32Min, Bool.true_and, Bool.false_or]
    rw [Int.min_eq_right (by omega), Int.min_eq_right (by omega), Int.max_eq_right (by omega), Int.max_eq_right (by omega)]
  rw [heq]
  exact t

/-- **C85** for empty SiQAD layouts. -/
theorem C85_siqad_empty (hT : T.Lawful) (s : State Siqad T) (h : Inv s) (hno : ∀ c, s.isEmptyCell c = true) :
    (siqadBox s none).toBox = ⟨0, 0, 0, 0⟩ ∧ (siqadBox s (some [])).toBox = ⟨0, 0, 0, 0⟩ := by
  have he := (cells_nil_iff hT h).2 hno
  unfold siqadBox
  constructor <;> simp [he, SiqadBox.toBox, row, Siqad.mk3]

end Siqad

/-! ## Where the code departs from it -/

/-- A cell in the lower row of dimer 0. -/
def lowCell : State Siqad sidb := (new : State Siqad sidb).assignCellType (Siqad.mk3 0 0 true) .normal

/-- **C85 is false for SiQAD layouts with defects**: corners are merged component by component. A cell in row 1 and a defect in
row 2 yield a box down to row 3. -/
theorem C85_false_siqad_defects :
    (siqadBox lowCell (some [Siqad.mk3 0 1 false])).toBox = ⟨0, 1, 0, 3⟩ ∧
    Fit (Siqad.mk3 0 1 false) ∧ row (Siqad.mk3 0 0 true) = 1 ∧ row (Siqad.mk3 0 1 false) = 2 := by
  refine ⟨by decide +kernel, ?_, by decide, by decide⟩
  unfold Fit row; decide

/-- A gate-level layout of 2 × 2 tiles with an input at `(5, 5)`; nothing prevents that, and `resize` leads to it as well. -/
def outsideOps : List GateLevel.Op := [.createPi ⟨5, 5, 0, false⟩]

/-- If all gates are outside of the aspect ratio, no tile is visited and the corners keep their initial values. -/
theorem C85_false_outside :
    gateBox ⟨1, 1, 0⟩ (GateLevel.run ⟨1, 1, 0⟩ GateLevel.init outsideOps) = ⟨2147483647, 2147483647, 0, 0⟩ := by
  decide +kernel

/-! ## The hypotheses hold in concrete cases -/

example : (siqadBox lowCell none).toBox = ⟨0, 1, 0, 1⟩ ∧ Fit (Siqad.mk3 0 0 true) := by
  refine ⟨by decide +kernel, ?_⟩
  unfold Fit row; decide

/-- Two cells and a defect. -/
def demoCells : State Cube sidb :=
  ((new : State Cube sidb).assignCellType (Cube.mk3 3 (-1) 0) .normal).assignCellType (Cube.mk3 5 4 0) .normal

example : cellBox cubeLimits (fun c => (c.x, c.y)) demoCells (some [Cube.mk3 (-2) 0 0]) = ⟨-2, -1, 5, 4⟩ ∧
    (cellBox cubeLimits (fun c => (c.x, c.y)) demoCells (some [Cube.mk3 (-2) 0 0])).xSize = 7 := by decide +kernel

example : gateBox ⟨3, 3, 1⟩ (GateLevel.run ⟨3, 3, 1⟩ GateLevel.init GateLevel.demoOps) = ⟨0, 0, 1, 2⟩ := by decide +kernel

end Verif.BoundingBox
