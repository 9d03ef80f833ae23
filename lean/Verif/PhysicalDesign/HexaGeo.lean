import Verif.PhysicalDesign.Hexagonalization
import Verif.PhysicalDesign.LayoutFn
import Verif.PhysicalDesign.OrthoSem
import Verif.Clocking.Lemmas
import Verif.Layouts.CartesianProps
import Verif.Layouts.HexProps
import Mathlib.Data.List.Nodup

/-!
# The geometry of hexagonalization
-/
namespace Verif.PhysicalDesign.Hexa

open Verif.Layouts Verif.Clocking Verif.GateLevel Verif.PhysicalDesign.Ortho

theorem toHexX_eq (h : Nat) (t : Coord) : toHexX h t = ((h / 2 : Nat) : Int) + ceilHalf ((t.x : Int) - t.y) := by
  unfold toHexX ceilHalf
  omega

theorem toHexX_nonneg {h : Nat} {t : Coord} (ht : t.y < h) : 0 ≤ toHexX h t := by
  rw [toHexX_eq]
  unfold ceilHalf
  omega

theorem mem_diagonal {w h d : Nat} {t : Coord} : t ∈ diagonal w h d ↔ t.z = 0 ∧ t.d = false ∧ t.x < w ∧ t.y < h ∧ d + t.y = t.x + (h - 1) := by
  unfold diagonal
  rw [List.mem_filterMap]
  constructor
  · rintro ⟨row, hr, he⟩
    rw [List.mem_range] at hr
    split_ifs at he with hc
    injection he with he
    subst he
    refine ⟨rfl, rfl, hc.2, ?_, ?_⟩ <;> simp only <;> omega
  · rintro ⟨h1, h2, h3, h4, h5⟩
    refine ⟨h - 1 - t.y, List.mem_range.2 (by omega), ?_⟩
    rw [if_pos (by omega)]
    obtain ⟨x, y, z, d'⟩ := t
    simp only at h1 h2 h3 h4 h5
    subst h1 h2
    have e1 : d - (h - 1 - y) = x := by omega
    have e2 : h - 1 - (h - 1 - y) = y := by omega
    simp only [e1, e2]

theorem foldl_max_const (K : Int) (hK : 0 ≤ K) (h : Nat) : ∀ (l : List Coord) (o : Int), (o = 0 ∨ o = K) → (∀ t ∈ l, toHexX h t = K) →
    (l ≠ [] ∨ o = K) → l.foldl (fun o t => max o (toHexX h t)) o = K := by
  intro l
  induction l with
  | nil => intro o _ _ h; simpa using h
  | cons t l ih =>
    intro o ho hl _
    rw [List.foldl_cons]
    refine ih _ (Or.inr ?_) (fun t ht => hl t (List.mem_cons_of_mem _ ht)) (Or.inr ?_) <;>
      (rw [hl t (List.mem_cons_self ..)]; rcases ho with rfl | rfl <;> omega)

/-- `firstColumn` over consecutive diagonals. -/
theorem firstColumn_spec (s : State) (w h : Nat) : ∀ (n lo : Nat),
    (∀ t : Coord, t.z = 0 → t.d = false → t.x < w → t.y < h → s.isEmptyTile t = false → lo + t.y ≤ t.x + (h - 1) ∧ t.x + (h - 1) < lo + n + t.y) →
    0 ≤ firstColumn s w h (List.range' lo n) ∧
    (∀ t : Coord, t.z = 0 → t.d = false → t.x < w → t.y < h → s.isEmptyTile t = false → firstColumn s w h (List.range' lo n) ≤ toHexX h t) ∧
    ((∃ t : Coord, t.z = 0 ∧ t.d = false ∧ t.x < w ∧ t.y < h ∧ s.isEmptyTile t = false) →
      ∃ t : Coord, t.z = 0 ∧ t.d = false ∧ t.x < w ∧ t.y < h ∧ s.isEmptyTile t = false ∧ toHexX h t = firstColumn s w h (List.range' lo n)) := by
  intro n
  induction n with
  | zero =>
    intro lo hall
    have no : ∀ t : Coord, t.z = 0 → t.d = false → t.x < w → t.y < h → s.isEmptyTile t = false → False := by
      intro t h1 h2 h3 h4 h5
      have := hall t h1 h2 h3 h4 h5
      omega
    refine ⟨by simp [firstColumn], fun t h1 h2 h3 h4 h5 => (no t h1 h2 h3 h4 h5).elim, ?_⟩
    rintro ⟨t, h1, h2, h3, h4, h5⟩
    exact (no t h1 h2 h3 h4 h5).elim
  | succ n ih =>
    intro lo hall
    rw [List.range'_succ]
    have hcol : ∀ t ∈ diagonal w h lo, toHexX h t = ((h / 2 : Nat) : Int) + ceilHalf ((lo : Int) - (h - 1 : Nat)) := by
      intro t ht
      rw [mem_diagonal] at ht
      rw [toHexX_eq]
      congr 2
      omega
    cases hf : (diagonal w h lo).filter (fun t => !s.isEmptyTile t) with
    | nil =>
      have he : firstColumn s w h (lo :: List.range' (lo + 1) n) = firstColumn s w h (List.range' (lo + 1) n) := by
        rw [firstColumn, hf]
      rw [he]
      refine ih (lo + 1) ?_
      intro t h1 h2 h3 h4 h5
      have := hall t h1 h2 h3 h4 h5
      have hne : lo + t.y ≠ t.x + (h - 1) := by
        intro e
        have : t ∈ (diagonal w h lo).filter (fun t => !s.isEmptyTile t) :=
          List.mem_filter.2 ⟨mem_diagonal.2 ⟨h1, h2, h3, h4, e⟩, by rw [h5]; rfl⟩
        rw [hf] at this
        cases this
      omega
    | cons t0 l =>
      have hmem : ∀ t ∈ t0 :: l, t ∈ diagonal w h lo ∧ s.isEmptyTile t = false := by
        intro t ht
        rw [← hf] at ht
        have := List.mem_filter.1 ht
        exact ⟨this.1, by simpa using this.2⟩
      have h0 := hmem t0 (by simp)
      have h0' := mem_diagonal.1 h0.1
      have hK : 0 ≤ ((h / 2 : Nat) : Int) + ceilHalf ((lo : Int) - (h - 1 : Nat)) := by
        rw [← hcol t0 h0.1]
        exact toHexX_nonneg h0'.2.2.2.1
      have he : firstColumn s w h (lo :: List.range' (lo + 1) n) = ((h / 2 : Nat) : Int) + ceilHalf ((lo : Int) - (h - 1 : Nat)) := by
        rw [firstColumn, hf]
        exact foldl_max_const _ hK h (t0 :: l) 0 (Or.inl rfl) (fun t ht => hcol t (hmem t ht).1) (Or.inl (by simp))
      rw [he]
      refine ⟨hK, ?_, fun _ => ⟨t0, h0'.1, h0'.2.1, h0'.2.2.1, h0'.2.2.2.1, h0.2, hcol t0 h0.1⟩⟩
      intro t h1 h2 h3 h4 h5
      have := hall t h1 h2 h3 h4 h5
      rw [toHexX_eq]
      unfold ceilHalf
      omega

/-- The offset is the smallest column of an occupied tile of the ground layer. -/
theorem getOffset_spec (m : Dim) (s : State) :
    0 ≤ getOffset m s ∧ (∀ t : Coord, t.z = 0 → InBounds m t → s.isEmptyTile t = false → getOffset m s ≤ toHexX (m.Y + 1) t) ∧
    ((∃ t : Coord, t.z = 0 ∧ InBounds m t ∧ s.isEmptyTile t = false) →
      ∃ t : Coord, t.z = 0 ∧ InBounds m t ∧ s.isEmptyTile t = false ∧ toHexX (m.Y + 1) t = getOffset m s) := by
  have := firstColumn_spec s (m.X + 1) (m.Y + 1) (m.Y + 1 + (m.X + 1) - 1) 0 (by intro t h1 h2 h3 h4 h5; omega)
  rw [← List.range_eq_range'] at this
  obtain ⟨h1, h2, h3⟩ := this
  refine ⟨h1, ?_, ?_⟩
  · intro t hz hb he
    exact h2 t hz hb.1 (by have := hb.2.1; omega) (by have := hb.2.2.1; omega) he
  · rintro ⟨t, hz, hb, he⟩
    obtain ⟨t', a1, a2, a3, a4, a5, a6⟩ := h3 ⟨t, hz, hb.1, by have := hb.2.1; omega, by have := hb.2.2.1; omega, he⟩
    exact ⟨t', a1, ⟨a2, by omega, by omega, by omega⟩, a5, a6⟩

theorem hexTile_x {h : Nat} {off : Int} {t : Coord} (ho : off ≤ toHexX h t) : ((hexTile h off t).x : Int) = toHexX h t - off := by
  unfold hexTile
  simp only
  omega

theorem hexTile_inj {h : Nat} {off : Int} {t t' : Coord} (ht : t.d = false) (ht' : t'.d = false) (ho : off ≤ toHexX h t) (ho' : off ≤ toHexX h t')
    (e : hexTile h off t = hexTile h off t') : t = t' := by
  have ex := hexTile_x ho
  have ex' := hexTile_x ho'
  rw [e, ex', toHexX_eq, toHexX_eq] at ex
  unfold ceilHalf at ex
  have ey := congrArg Coord.y e
  have ez := congrArg Coord.z e
  simp only [hexTile] at ey ez
  obtain ⟨x, y, z, d⟩ := t
  obtain ⟨x', y', z', d'⟩ := t'
  simp only at *
  subst ht ht' ez
  congr 1 <;> omega

/-- The source of the information: western or northern neighbour, at most one layer apart. -/
def Flow (c t : Coord) : Prop :=
  ((c.x + 1 = t.x ∧ c.y = t.y) ∨ (c.x = t.x ∧ c.y + 1 = t.y)) ∧ (c.z = t.z ∨ c.z = t.z + 1 ∨ c.z + 1 = t.z)

theorem clock_twoddwave (nc : NumClks) (k : Coord) : (twoddwaveClocking .cart nc).clock k = (k.x + k.y) % nc.val := by
  rw [← fn_twoddwave .cart]
  unfold Scheme.clock
  cases nc <;> rfl

theorem above_in {m : Dim} {t : Coord} (h : InBounds m t) : InBounds m (Cart.above m t) ∧ (Cart.above m t).x = t.x ∧ (Cart.above m t).y = t.y ∧
    ((Cart.above m t).z = t.z ∨ (Cart.above m t).z = t.z + 1) ∧ (t.z < m.Z → (Cart.above m t).z = t.z + 1) := by
  obtain ⟨h1, h2, h3, h4⟩ := h
  unfold Cart.above
  rw [if_neg (by omega)]
  split_ifs with h
  · exact ⟨⟨h1, h2, h3, by simp only; omega⟩, rfl, rfl, Or.inr rfl, fun _ => rfl⟩
  · exact ⟨⟨h1, h2, h3, h4⟩, rfl, rfl, Or.inl rfl, fun hc => absurd hc h⟩

theorem below_in {m : Dim} {t : Coord} (h : InBounds m t) : InBounds m (Cart.below t) ∧ (Cart.below t).x = t.x ∧ (Cart.below t).y = t.y ∧
    ((Cart.below t).z = t.z ∨ (Cart.below t).z + 1 = t.z) ∧ (0 < t.z → (Cart.below t).z + 1 = t.z) := by
  obtain ⟨h1, h2, h3, h4⟩ := h
  unfold Cart.below
  split_ifs with h
  · exact ⟨⟨h1, h2, h3, h4⟩, rfl, rfl, Or.inl rfl, fun hc => by omega⟩
  · exact ⟨⟨h1, h2, h3, by simp only; omega⟩, rfl, rfl, Or.inr (by simp only; omega), fun _ => by simp only; omega⟩

theorem flow_of {m : Dim} {c t : Coord} (hc : InBounds m c) (ht : InBounds m t) {nc : NumClks}
    (h : (Topo.isAdjacentElevationOf .cart m t c && (!true || isIncomingClocked (twoddwaveClocking .cart nc) t c)) = true) : Flow c t := by
  rw [Bool.and_eq_true] at h
  obtain ⟨h1, h2⟩ := h
  simp only [Bool.not_true, Bool.false_or] at h2
  unfold isIncomingClocked at h2
  split_ifs at h2 with hne
  rw [beq_iff_eq, clock_twoddwave, clock_twoddwave] at h2
  have hnum : (twoddwaveClocking .cart nc).numClocks = nc.val := by cases nc <;> rfl
  rw [hnum] at h2
  have key : ∀ t' : Coord, InBounds m t' → t'.x = t.x → t'.y = t.y → (t'.z = t.z ∨ t'.z = t.z + 1 ∨ t'.z + 1 = t.z) → Cart.isAdjacentOf m t' c = true → Flow c t := by
    intro t' hb hx hy hz ha
    rw [(C07_is_adjacent m t' c hb hc).1] at ha
    unfold Flow
    unfold GridNeighbors at ha
    rw [hx, hy] at ha
    cases nc <;> simp only [NumClks.val] at h2 <;> omega
  unfold Topo.isAdjacentElevationOf Topo.isAdjacentOf at h1
  simp only [Bool.or_eq_true] at h1
  obtain ⟨a1, a2, a3, a4, -⟩ := above_in ht
  obtain ⟨b1, b2, b3, b4, -⟩ := below_in ht
  rcases h1 with (h1 | h1) | h1
  · exact key t ht rfl rfl (Or.inl rfl) h1
  · exact key _ a1 a2 a3 (by omega) h1
  · exact key _ b1 b2 b3 (by omega) h1

/-- Neighbours stay neighbours: the information flows from the row above. -/
theorem hexTile_flow {h : Nat} {off : Int} {c t : Coord} (hc : off ≤ toHexX h c) (ht : off ≤ toHexX h t) (hf : Flow c t) :
    (hexTile h off c).y + 1 = (hexTile h off t).y ∧
      ∀ t' : Coord, t'.x = (hexTile h off t).x → t'.y = (hexTile h off t).y → t'.z = c.z → HexNeighbors .evenRow t' (hexTile h off c) := by
  have e1 := hexTile_x hc
  have e2 := hexTile_x ht
  rw [toHexX_eq] at e1 e2
  unfold ceilHalf at e1 e2
  have y1 : (hexTile h off c).y = c.x + c.y := rfl
  have y2 : (hexTile h off t).y = t.x + t.y := rfl
  have z1 : (hexTile h off c).z = c.z := rfl
  obtain ⟨hf, -⟩ := hf
  refine ⟨by omega, ?_⟩
  intro t' hx hy hz
  unfold HexNeighbors hexCentre
  simp only [Hex.Arr.pointy]
  refine ⟨by omega, Or.inl ?_⟩
  omega

theorem fanin_hex {mh : Dim} (hX : mh.X < 2^31 - 1) (hY : mh.Y < 2^31 - 1) {h : Nat} {off : Int} {c t : Coord} (hc : off ≤ toHexX h c)
    (ht : off ≤ toHexX h t) (hf : Flow c t) (bc : InBounds mh (hexTile h off c)) (bt : InBounds mh (hexTile h off t)) :
    (Topo.isAdjacentElevationOf (.hex .evenRow) mh (hexTile h off t) (hexTile h off c) &&
      (!true || isIncomingClocked (rowClocking (.hex .evenRow) .four) (hexTile h off t) (hexTile h off c))) = true := by
  obtain ⟨hy, hn⟩ := hexTile_flow hc ht hf
  rw [Bool.and_eq_true]
  constructor
  · unfold Topo.isAdjacentElevationOf Topo.isAdjacentOf
    simp only [Bool.or_eq_true]
    obtain ⟨a1, a2, a3, -, a5⟩ := above_in bt
    obtain ⟨b1, b2, b3, -, b5⟩ := below_in bt
    have z1 : (hexTile h off c).z = c.z := rfl
    have z2 : (hexTile h off t).z = t.z := rfl
    have key : ∀ t' : Coord, InBounds mh t' → t'.x = (hexTile h off t).x → t'.y = (hexTile h off t).y → t'.z = c.z →
        Hex.isAdjacentOf .evenRow mh t' (hexTile h off c) = true := by
      intro t' hb hx hy hz
      exact (C09_is_adjacent .evenRow mh hX hY t' _ hb bc).1.2 (hn t' hx hy hz)
    have hbz := bc.2.2.2
    rcases hf.2 with e | e | e
    · exact Or.inl (Or.inl (key _ bt rfl rfl (by omega)))
    · exact Or.inl (Or.inr (key _ a1 a2 a3 (by have := a5 (by omega); omega)))
    · exact Or.inr (key _ b1 b2 b3 (by have := b5 (by omega); omega))
  · simp only [Bool.not_true, Bool.false_or]
    unfold isIncomingClocked
    rw [if_neg (by intro e; rw [e] at hy; omega), beq_iff_eq]
    have e : ∀ k, (rowClocking (.hex .evenRow) .four).clock k = k.y % 4 := by
      intro k
      rw [show (4 : Nat) = NumClks.four.val from rfl, ← fn_row (.hex .evenRow)]
      rfl
    rw [e, e]
    show ((hexTile h off c).y % 4 + 1) % 4 = _ % 4
    omega

end Verif.PhysicalDesign.Hexa
