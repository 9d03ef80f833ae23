import Verif.Io.SqdEffect
import Mathlib.Data.Rat.Encodable
import Mathlib.Data.List.Perm.Basic

/-!
# C87 and C88: SQD files
-/
namespace Verif.Sqd

open Verif.Coordinates Verif.Cells Verif.Defects

/-! ## Positions -/

theorem wrap32_id {i : Int} (h1 : int32Min ≤ i) (h2 : i ≤ int32Max) : wrap32 i = i := by
  unfold int32Min at h1
  unfold int32Max at h2
  unfold wrap32
  exact Int.bmod_eq_of_le (by omega) (by omega)

/-- A SiQAD coordinate with 32-bit components. -/
def SiqadOk (c : Siqad) : Prop := c.d = false ∧ int32Min ≤ c.x ∧ c.x ≤ int32Max ∧ int32Min ≤ c.y ∧ c.y ≤ int32Max
/-- An offset coordinate in the ground layer. -/
def OffsetOk (c : UCoord) : Prop := c.d = 0#1 ∧ c.z = 0#1
/-- A cube coordinate in the ground layer without negative components. -/
def CubeOk (c : Cube) : Prop := c.d = false ∧ c.z = 0 ∧ 0 ≤ c.x ∧ c.x ≤ int32Max ∧ 0 ≤ c.y ∧ c.y ≤ int32Max

theorem kept_siqad {c : Siqad} (h : SiqadOk c) : Kept siqadKind c := by
  obtain ⟨h0, h1, h2, h3, h4⟩ := h
  have hx := wrap32_id h1 h2
  have hy := wrap32_id h3 h4
  unfold int32Min at h1 h3
  unfold int32Max at h2 h4
  refine ⟨?_, ?_⟩
  · intro i hi
    simp only [siqadKind, List.mem_cons, List.not_mem_nil, or_false] at hi
    rcases hi with rfl | rfl | rfl
    · omega
    · omega
    · unfold Siqad.zi; split_ifs <;> omega
  · simp only [siqadKind, hx, hy]
    obtain ⟨d, z, y, x⟩ := c
    cases z <;> simp_all [Siqad.mk3, Siqad.zi]

theorem dimer_ok (x y : Nat) (hx : x < 4294967296) (hy : y < 4294967296) :
    dimer (x : Int) ((y / 2 : Nat) : Int) (if (y % 2 != 0) = true then 1 else 0) = .ok ((x : Int), (y : Int)) := by
  unfold dimer
  rw [if_neg (by omega), if_neg (by split_ifs <;> omega)]
  have : ((y / 2 : Nat) : Int) * 2 + (if (y % 2 != 0) = true then 1 else 0) = (y : Int) := by
    split_ifs with h
    · have : y % 2 ≠ 0 := by simpa using h
      omega
    · have : y % 2 = 0 := by simpa using h
      omega
  rw [this, if_neg (by omega)]

theorem kept_offset {c : UCoord} (h : OffsetOk c) : Kept offsetKind c := by
  obtain ⟨h0, h1⟩ := h
  have hx := c.x.isLt
  have hy := c.y.isLt
  refine ⟨?_, ?_⟩
  · intro i hi
    simp only [offsetKind, offsetToSiqad, Siqad.mk3, List.mem_cons, List.not_mem_nil, or_false] at hi
    rcases hi with rfl | rfl | rfl
    · omega
    · omega
    · unfold Siqad.zi; split_ifs <;> omega
  · change (match dimer (c.x.toNat : Int) ((c.y.toNat / 2 : Nat) : Int) (if (c.y.toNat % 2 != 0) = true then 1 else 0) with
      | .error e => .error e
      | .ok p => .ok (UCoord.mk3 (BitVec.ofInt 31 p.1) (BitVec.ofInt 31 p.2) 0)) = Except.ok c
    rw [dimer_ok c.x.toNat c.y.toNat (by omega) (by omega)]
    obtain ⟨d, z, y, x⟩ := c
    simp_all [UCoord.mk3]

theorem kept_cube {c : Cube} (h : CubeOk c) : Kept cubeKind c := by
  obtain ⟨h0, h1, h2, h3, h4, h5⟩ := h
  have hx := wrap32_id (by unfold int32Min; omega) h3
  have hy := wrap32_id (by unfold int32Min; omega) h5
  unfold int32Max at h3 h5
  obtain ⟨d, z, y, x⟩ := c
  dsimp only at *
  obtain ⟨x, rfl⟩ := Int.eq_ofNat_of_zero_le h2
  obtain ⟨y, rfl⟩ := Int.eq_ofNat_of_zero_le h4
  have hp : toSiqadCoord ⟨d, z, y, x⟩ = Siqad.mk3 x ((y / 2 : Nat) : Int) (y % 2 != 0) := by
    unfold toSiqadCoord
    dsimp only
    rw [if_pos h4]
    have e1 : (y : Int).tmod 2 = ((y % 2 : Nat) : Int) := by rw [Int.tmod_eq_emod_of_nonneg h4]; omega
    have e2 : ((y : Int) - (y : Int).tmod 2).tdiv 2 = ((y / 2 : Nat) : Int) := by
      rw [e1, Int.tdiv_eq_ediv_of_nonneg (by omega)]
      omega
    rw [e2, e1]
    have e3 : ((((y % 2 : Nat) : Int)) != 0) = (y % 2 != 0) := by
      rcases Nat.mod_two_eq_zero_or_one y with h | h <;> rw [h] <;> rfl
    rw [e3]
  refine ⟨?_, ?_⟩
  · intro i hi
    simp only [cubeKind, hp, Siqad.mk3, List.mem_cons, List.not_mem_nil, or_false] at hi
    rcases hi with rfl | rfl | rfl
    · omega
    · omega
    · unfold Siqad.zi; split_ifs <;> omega
  · have hz : (Siqad.mk3 x ((y / 2 : Nat) : Int) (y % 2 != 0)).zi = if (y % 2 != 0) = true then 1 else 0 := rfl
    simp only [cubeKind, hp, hz]
    simp only [Siqad.mk3]
    rw [dimer_ok x y (by omega) (by omega)]
    simp only [hx, hy, Cube.mk3, h0, h1]

/-! ## C88: what the reader accepts and what it reads -/

section
variable {C : Type} [DecidableEq C] (K : Kind C) (F : Dbl) (o : Orient) (iface : Bool)

/-- **C88** Reading succeeds exactly if the document describes dots and defects. -/
theorem C88_accepts (doc : Option (List Xml)) (L : Lay C) :
    (read K F o iface doc L).2 = none ↔ ∃ parts, Describes K F o iface doc parts := by
  constructor
  · exact read_inv K F o iface
  · rintro ⟨parts, h⟩
    obtain ⟨L', -, h2⟩ := read_ok K F o iface h L
    rw [h2]

/-- **C88** Which attributes name a position in offset coordinates, and which one. -/
theorem C88_offset_position (n m l : Int) (hn : n < 2 ^ 31) (hm : m < 2 ^ 30) (c : UCoord) :
    offsetKind.get n m l = .ok c ↔
      0 ≤ n ∧ 0 ≤ m ∧ (l = 0 ∨ l = 1) ∧ OffsetOk c ∧ (c.x.toNat : Int) = n ∧ (c.y.toNat : Int) = 2 * m + l := by
  unfold offsetKind
  dsimp only
  unfold dimer
  by_cases h1 : n < 0 ∨ m < 0
  · rw [if_pos h1]
    constructor
    · intro h; cases h
    · rintro ⟨h2, h3, -⟩; omega
  · rw [if_neg h1]
    by_cases h2 : l < 0 ∨ l > 1
    · rw [if_pos h2]
      constructor
      · intro h; cases h
      · rintro ⟨-, -, h3, -⟩; omega
    · rw [if_neg h2, if_neg (by omega)]
      dsimp only
      obtain ⟨n, rfl⟩ := Int.eq_ofNat_of_zero_le (show 0 ≤ n by omega)
      obtain ⟨k, hk⟩ := Int.eq_ofNat_of_zero_le (show 0 ≤ m * 2 + l by omega)
      rw [hk]
      have e1 : (BitVec.ofInt 31 (n : Int)).toNat = n := by simp; omega
      have e2 : (BitVec.ofInt 31 (k : Int)).toNat = k := by simp; omega
      constructor
      · intro h
        simp only [Except.ok.injEq] at h
        subst h
        exact ⟨by omega, by omega, by omega, ⟨rfl, rfl⟩, by simp only [UCoord.mk3, e1], by simp only [UCoord.mk3, e2]; omega⟩
      · rintro ⟨-, -, -, ⟨h3, h4⟩, h5, h6⟩
        simp only [Except.ok.injEq]
        obtain ⟨d, z, y, x⟩ := c
        simp only at h3 h4 h5 h6
        subst h3 h4
        unfold UCoord.mk3
        congr 1
        · apply BitVec.eq_of_toNat_eq; rw [e2]; omega
        · apply BitVec.eq_of_toNat_eq; rw [e1]; omega

/-- **C88** The position named in SiQAD coordinates by attributes in range. -/
theorem C88_siqad_position (n m l : Int) (hn : int32Min ≤ n ∧ n ≤ int32Max) (hm : int32Min ≤ m ∧ m ≤ int32Max)
    (hl : l = 0 ∨ l = 1) (c : Siqad) :
    siqadKind.get n m l = .ok c ↔ c.d = false ∧ c.x = n ∧ c.y = m ∧ c.zi = l := by
  unfold siqadKind
  dsimp only
  rw [wrap32_id hn.1 hn.2, wrap32_id hm.1 hm.2]
  obtain ⟨d, z, y, x⟩ := c
  rcases hl with rfl | rfl <;> cases z <;> cases d <;> simp [Siqad.mk3, Siqad.zi, eq_comm, and_comm]

/-- **C88** The layout that a document is read into then holds its dots and defects on top of what it held before: the last
dot or defect of the document at a position counts. Names of cells are kept. -/
theorem C88_content {doc : Option (List Xml)} {parts : List (Part C)} (h : Describes K F o iface doc parts) (L : Lay C) :
    ∃ L', read K F o iface doc L = (L', none) ∧
      (∀ c, L'.cells.getCellType c = (lastOf (allDots parts) c).getD (L.cells.getCellType c)) ∧
      (∀ c, L'.defects.get c = ((lastOf (allDefects parts) c).map (stored L.defects.ignore)).getD (L.defects.get c)) ∧
      ∀ c, L'.cells.getCellName c = L.cells.getCellName c := by
  obtain ⟨L', h1, h2⟩ := read_ok K F o iface h L
  refine ⟨_, h2, ?_⟩
  rw [foldl_putPart] at h1
  rw [← h1]
  exact ⟨fun c => types_foldl _ _ c, fun c => (defects_foldl _ _ c).1, fun c => names_foldl _ _ c⟩

/-- **C88** The aspect ratio in the end covers the positions of the document, and no more. -/
theorem C88_aspect {f : C → Int} (hf : Measures K f) {doc : Option (List Xml)} {parts : List (Part C)}
    (h : Describes K F o iface doc parts) (L : Lay C) :
    ∃ L', read K F o iface doc L = (L', none) ∧ Largest f (positions parts) (f L'.dim) := by
  obtain ⟨L', h1, h2⟩ := read_ok K F o iface h L
  refine ⟨_, h2, ?_⟩
  rw [foldl_putPart] at h1
  rw [← h1]
  dsimp only
  rw [hf.fit]
  exact largest_foldl K hf _

/-! ## C87: round trip -/

/-- `L'` has the cells and defects of `L`. -/
structure Same (L L' : Lay C) : Prop where
  types : ∀ c, L'.cells.getCellType c = L.cells.getCellType c
  numCells : L'.cells.numCells = L.cells.numCells
  pis : ∀ c, L'.cells.isPi c = L.cells.isPi c
  pos : ∀ c, L'.cells.isPo c = L.cells.isPo c
  defects : ∀ c, L'.defects.get c = L.defects.get c

theorem roundtrip (hF : ∀ r, F.get (F.put r) = some r) (program : List Xml) {L : Lay C} (hi : Inv L.cells) (hs : Ok L.defects)
    (hoff : iface = false → L.defects.defects = [])
    (hc : ∀ c, L.cells.getCellType c ≠ .empty → Kept K c) (hd : ∀ p ∈ L.defects.visited, Kept K p.1 ∧ Expressible p.2) :
    ∃ L', read K F o iface (some [write K F o iface program L]) (Lay.new K) = (L', none) ∧ Same L L' ∧
      ∀ f, Measures K f → Largest f (L.cells.cells ++ L.defects.visited.map (·.1)) (f L'.dim) := by
  have hw := write_describes K F o iface hF program hi hc hd
  obtain ⟨L', h1, h2⟩ := read_ok K F o iface hw (Lay.new K)
  refine ⟨_, h2, ?_, ?_⟩
  · rw [foldl_putPart, partsOf_dots, partsOf_defects iface L hoff] at h1
    have hkn : ((L.cells.cells.map fun c => (c, L.cells.getCellType c)).map (·.1)).Nodup := by
      rw [List.map_map]
      have : ((fun p : C × SidbType => p.1) ∘ fun c => (c, L.cells.getCellType c)) = id := rfl
      rw [this, List.map_id]
      exact hi.nodup
    have ht : ∀ c, L'.cells.getCellType c = L.cells.getCellType c := by
      intro c
      rw [← h1, types_foldl, lastOf_nodup hkn]
      by_cases hcm : c ∈ L.cells.cells
      · rw [(find_iff hkn c (L.cells.getCellType c)).2 (List.mem_map.2 ⟨c, hcm, rfl⟩)]
        rfl
      · have hn : find (L.cells.cells.map fun c => (c, L.cells.getCellType c)) c = none := by
          rw [← Option.not_isSome_iff_eq_none, ← mem_keys_iff]
          simpa [Function.comp_def] using hcm
        rw [hn, Option.getD_none]
        by_contra hne
        exact hcm ((mem_cells hi c).2 (fun e => hne (by rw [e]; rfl)))
    have hi' : Inv L'.cells := by
      rw [← h1]
      exact inv_foldl _ (inv_new sidb_lawful _ _ _)
    refine ⟨ht, ?_, ?_, ?_, ?_⟩
    · have hp : L'.cells.cells.Perm L.cells.cells := by
        refine (List.perm_ext_iff_of_nodup (l₁ := L'.cells.cells) (l₂ := L.cells.cells) hi'.nodup hi.nodup).2 fun c => ?_
        exact (mem_cells hi' c).trans (by rw [ht c]; exact (mem_cells hi c).symm)
      have := hp.length_eq
      simpa [State.cells, State.numCells] using this
    · intro c
      unfold State.isPi
      rw [decide_eq_decide, hi'.inputs, hi.inputs]
      rw [ht c]
    · intro c
      unfold State.isPo
      rw [decide_eq_decide, hi'.outputs, hi.outputs]
      rw [ht c]
    · intro c
      dsimp only
      rw [← h1]
      rw [(defects_foldl _ _ c).1, lastOf_nodup hs.nodup, get_eq L.defects]
      cases hfd : find L.defects.defects c with
      | none => rfl
      | some d =>
        have hm := find_mem hfd
        have hne := hs.kinds _ hm
        show stored [] d = d
        unfold stored
        rw [if_neg]
        rintro (h | h)
        · exact hne.1 h
        · cases h
  · intro f hf
    rw [foldl_putPart] at h1
    rw [← partsOf_positions iface L hoff, ← h1]
    dsimp only
    rw [hf.fit]
    exact largest_foldl K hf _

end

section
variable (F : Dbl) (hF : ∀ r, F.get (F.put r) = some r) (o : Orient) (program : List Xml)
include hF

/-- The layout that a history of operations on cells and on defects leaves behind. -/
def built {C : Type} [DecidableEq C] (name : String) (ops : List (Cells.Op C sidb)) (ignore : List DefectType)
    (dops : List (Defects.Op C)) (dim : C) : Lay C :=
  ⟨run (Cells.new name 1 1) ops, (Surface.new ignore).run dops, dim⟩

/-- **C87** Reading what was written of any layout in SiQAD coordinates with defects of expressible kinds yields its cells, their
types and its defects; the aspect ratio is the smallest one that covers them. -/
theorem C87_siqad (name : String) (ops : List (Cells.Op Siqad sidb)) (ignore : List DefectType) (dops : List (Defects.Op Siqad))
    (dim : Siqad) (hc : ∀ c, (built name ops ignore dops dim).cells.getCellType c ≠ .empty → SiqadOk c)
    (hd : ∀ p ∈ (built name ops ignore dops dim).defects.visited, SiqadOk p.1 ∧ Expressible p.2) :
    ∃ L', read siqadKind F o true (some [write siqadKind F o true program (built name ops ignore dops dim)]) (Lay.new siqadKind) =
        (L', none) ∧ Same (built name ops ignore dops dim) L' ∧
      Largest Siqad.x ((built name ops ignore dops dim).cells.cells ++ (built name ops ignore dops dim).defects.visited.map (·.1)) L'.dim.x ∧
      Largest Siqad.y ((built name ops ignore dops dim).cells.cells ++ (built name ops ignore dops dim).defects.visited.map (·.1)) L'.dim.y := by
  obtain ⟨L', h1, h2, h3⟩ := roundtrip siqadKind F o true hF program (L := built name ops ignore dops dim)
    (inv_run sidb_lawful (inv_new sidb_lawful _ _ _) ops) (ok_run (ok_new ignore) dops).1 (fun h => by cases h)
    (fun c h => kept_siqad (hc c h)) (fun p hp => ⟨kept_siqad (hd p hp).1, (hd p hp).2⟩)
  exact ⟨L', h1, h2, h3 _ measures_siqad.1, h3 _ measures_siqad.2⟩

/-- **C87** The same for offset coordinates in the ground layer. -/
theorem C87_offset (name : String) (ops : List (Cells.Op UCoord sidb)) (ignore : List DefectType) (dops : List (Defects.Op UCoord))
    (dim : UCoord) (hc : ∀ c, (built name ops ignore dops dim).cells.getCellType c ≠ .empty → OffsetOk c)
    (hd : ∀ p ∈ (built name ops ignore dops dim).defects.visited, OffsetOk p.1 ∧ Expressible p.2) :
    ∃ L', read offsetKind F o true (some [write offsetKind F o true program (built name ops ignore dops dim)]) (Lay.new offsetKind) =
        (L', none) ∧ Same (built name ops ignore dops dim) L' ∧
      Largest (fun c => (c.x.toNat : Int)) ((built name ops ignore dops dim).cells.cells ++ (built name ops ignore dops dim).defects.visited.map (·.1)) L'.dim.x.toNat ∧
      Largest (fun c => (c.y.toNat : Int)) ((built name ops ignore dops dim).cells.cells ++ (built name ops ignore dops dim).defects.visited.map (·.1)) L'.dim.y.toNat := by
  obtain ⟨L', h1, h2, h3⟩ := roundtrip offsetKind F o true hF program (L := built name ops ignore dops dim)
    (inv_run sidb_lawful (inv_new sidb_lawful _ _ _) ops) (ok_run (ok_new ignore) dops).1 (fun h => by cases h)
    (fun c h => kept_offset (hc c h)) (fun p hp => ⟨kept_offset (hd p hp).1, (hd p hp).2⟩)
  exact ⟨L', h1, h2, h3 _ measures_offset.1, h3 _ measures_offset.2⟩

/-- **C87** The same for cube coordinates in the ground layer without negative components. -/
theorem C87_cube_partial (name : String) (ops : List (Cells.Op Cube sidb)) (ignore : List DefectType) (dops : List (Defects.Op Cube))
    (dim : Cube) (hc : ∀ c, (built name ops ignore dops dim).cells.getCellType c ≠ .empty → CubeOk c)
    (hd : ∀ p ∈ (built name ops ignore dops dim).defects.visited, CubeOk p.1 ∧ Expressible p.2) :
    ∃ L', read cubeKind F o true (some [write cubeKind F o true program (built name ops ignore dops dim)]) (Lay.new cubeKind) =
        (L', none) ∧ Same (built name ops ignore dops dim) L' ∧
      Largest Cube.x ((built name ops ignore dops dim).cells.cells ++ (built name ops ignore dops dim).defects.visited.map (·.1)) L'.dim.x ∧
      Largest Cube.y ((built name ops ignore dops dim).cells.cells ++ (built name ops ignore dops dim).defects.visited.map (·.1)) L'.dim.y := by
  obtain ⟨L', h1, h2, h3⟩ := roundtrip cubeKind F o true hF program (L := built name ops ignore dops dim)
    (inv_run sidb_lawful (inv_new sidb_lawful _ _ _) ops) (ok_run (ok_new ignore) dops).1 (fun h => by cases h)
    (fun c h => kept_cube (hc c h)) (fun p hp => ⟨kept_cube (hd p hp).1, (hd p hp).2⟩)
  exact ⟨L', h1, h2, h3 _ measures_cube.1, h3 _ measures_cube.2⟩

/-- **C87** The same for layouts without the interface of defects, of each kind of coordinates. -/
theorem C87_no_defects {C : Type} [DecidableEq C] (K : Kind C) (name : String) (ops : List (Cells.Op C sidb)) (dim : C)
    (hc : ∀ c, (built name ops [] [] dim).cells.getCellType c ≠ .empty → Kept K c) :
    ∃ L', read K F o false (some [write K F o false program (built name ops [] [] dim)]) (Lay.new K) = (L', none) ∧
      Same (built name ops [] [] dim) L' := by
  obtain ⟨L', h1, h2, -⟩ := roundtrip K F o false hF program (L := built name ops [] [] dim)
    (inv_run sidb_lawful (inv_new sidb_lawful _ _ _) ops) (ok_new []) (fun _ => rfl) hc (fun p hp => by cases hp)
  exact ⟨L', h1, h2⟩

end

/-- **C87** A file of one lattice orientation is not read as a layout of the other one. -/
theorem C87_orientation {C : Type} [DecidableEq C] (K : Kind C) (F : Dbl) (iface : Bool) (program : List Xml) (L L0 : Lay C) :
    read K F .si111 iface (some [write K F .si100 iface program L]) L0 = (L0, some .parsing) ∧
      read K F .si100 iface (some [write K F .si111 iface program L]) L0 = (L0, some .parsing) := by
  have key : ∀ o o' : Orient, latOk o' (latVec o) = false →
      read K F o' iface (some [write K F o iface program L]) L0 = (L0, some .parsing) := by
    intro o o' h
    have e1 : [write K F o iface program L].find? (fun e => e.tag = "siqad".toList) = some (write K F o iface program L) := by
      simp [write, Xml.tag]
    have e2 : ((write K F o iface program L).first "layers".toList).bind (fun l => (l.first "layer_prop".toList).bind fun p => p.first "lat_vec".toList) = some (latVec o) := by
      cases o <;> simp [write, Xml.tag, Xml.first, Xml.children, layers, layerProp, latVec, leaf]
    unfold read
    dsimp only
    rw [e1]
    dsimp only
    rw [e2]
    dsimp only
    rw [if_neg (by rw [h]; decide)]
  exact ⟨key _ _ (by decide +kernel), key _ _ (by decide +kernel)⟩

/-! ## QCA layouts -/

/-- **C87** The dots written for QCA cells tell the cells apart: a dot of two cells is a dot of one and the same column and row. -/
theorem C87_qca_apart (t t' : QcaType) (x y x' y' : Nat) (p : Nat × Nat) (h : p ∈ qcaDots t x y) (h' : p ∈ qcaDots t' x' y') :
    x = x' ∧ y = y' := by
  have key : ∀ (t : QcaType) (x y : Nat), p ∈ qcaDots t x y → x = p.1 / 14 ∧ y = p.2 / 7 := by
    intro t x y h
    unfold qcaDots at h
    rw [List.mem_append] at h
    rcases h with h | h
    all_goals
      split_ifs at h
      · simp only [List.mem_cons, List.not_mem_nil, or_false] at h
        rcases h with rfl | rfl <;> (constructor <;> dsimp only <;> omega)
      · cases h
  have h1 := key t x y h
  have h2 := key t' x' y' h'
  omega

/-- **C87** Each QCA cell is written as four dots in the corners of its field, of which the constants have one diagonal only. -/
theorem C87_qca_dots (t : QcaType) (x y : Nat) :
    (qcaDots t x y).Nodup ∧ ∀ p, p ∈ qcaDots t x y ↔
      t ≠ .const1 ∧ (p = (14 * x, 7 * y) ∨ p = (14 * x + 6, 7 * y + 3)) ∨
        t ≠ .const0 ∧ (p = (14 * x + 6, 7 * y) ∨ p = (14 * x, 7 * y + 3)) := by
  constructor
  · unfold qcaDots
    cases t <;> simp <;> omega
  · intro p
    unfold qcaDots
    rw [Nat.mul_comm 14, Nat.mul_comm 7]
    cases t <;> simp [or_assoc]

/-- **C87** In a layout whose cells lie in the ground layer, no position is written twice, and the number of dots is four for each
cell but the constants, which have two. -/
theorem C87_qca_layout (ops : List (Cells.Op UCoord qca)) (s : State UCoord qca) (hs : s = run (Cells.new "" 1 1) ops)
    (hg : ∀ c ∈ s.cells, OffsetOk c) :
    (qcaWrite s).Nodup ∧ (qcaWrite s).length + 2 * (s.numCellsOfType .const0 + s.numCellsOfType .const1) = 4 * s.numCells := by
  have hi : Inv s := by rw [hs]; exact inv_run qca_lawful (inv_new qca_lawful _ _ _) ops
  constructor
  · unfold qcaWrite
    rw [List.nodup_flatMap]
    refine ⟨fun c _ => ?_, ?_⟩
    · unfold qcaDots
      cases s.getCellType c <;> simp <;> omega
    · have hnd : s.cells.Nodup := hi.nodup
      refine List.Pairwise.imp_of_mem ?_ hnd
      intro a b ha hb hab p hp hq
      obtain ⟨h1, h2⟩ := C87_qca_apart _ _ _ _ _ _ p hp hq
      apply hab
      obtain ⟨a1, a2⟩ := hg a ha
      obtain ⟨b1, b2⟩ := hg b hb
      obtain ⟨ad, az, ay, ax⟩ := a
      obtain ⟨bd, bz, by', bx⟩ := b
      simp only at *
      subst a1 a2 b1 b2
      rw [BitVec.eq_of_toNat_eq h1, BitVec.eq_of_toNat_eq h2]
  · unfold qcaWrite State.numCellsOfType State.cellsByType State.numCells
    have hl : s.types.length = s.cells.length := by unfold State.cells; rw [List.length_map]
    rw [hl]
    induction s.cells with
    | nil => rfl
    | cons c l ih =>
      rw [List.flatMap_cons, List.length_append, List.filter_cons, List.filter_cons, List.length_cons]
      unfold qcaDots at *
      cases ht : s.getCellType c <;> simp at * <;> omega

/-! ## Where the files lose information -/

/-- Integers only. -/
def intDbl : Dbl := ⟨fun r => showInt r.num, fun t => (stoll t).map fun i => (i : Rat)⟩

/-- Writing and reading a layout with one defect at `(1, 2)`. -/
def reread (d : Defect) : Option Defect :=
  match read siqadKind intDbl .si100 true
      (some [write siqadKind intDbl .si100 true [] (built "" [] [] [.assign (Siqad.mk3 1 2 false) d] Siqad.default)]) (Lay.new siqadKind) with
  | (L', none) => some (L'.defects.get (Siqad.mk3 1 2 false))
  | (_, some _) => none

/-- **The type of arsenic defects is lost**: they are written without a name. -/
theorem C87_false_arsenic : reread ⟨.arsenic, 1, 10, 5⟩ = some ⟨.unknown, 1, 10, 5⟩ := by decide +kernel

/-- **The electrical parameters of neutral defects are lost.** -/
theorem C87_false_neutral : reread ⟨.siloxane, 0, 10, 5⟩ = some ⟨.siloxane, 0, 0, 0⟩ := by decide +kernel

/-- **Layouts with negative cube coordinates are written, but cannot be read.** -/
theorem C87_false_negative :
    (read cubeKind intDbl .si100 true
      (some [write cubeKind intDbl .si100 true [] (built "" [.type (Cube.mk3 (-1) 2 0) .normal] [] [] Cube.default)]) (Lay.new cubeKind)).2 =
      some .parsing := by
  decide +kernel

/-- **The layer of a cell is lost**: two cells above each other are written to the same position. -/
theorem C87_false_layer :
    (match read offsetKind intDbl .si100 true
      (some [write offsetKind intDbl .si100 true []
        (built "" [.type (UCoord.mk3 1 2 0) .input, .type (UCoord.mk3 1 2 1) .output] [] [] UCoord.default)]) (Lay.new offsetKind) with
      | (L', none) => decide (L'.cells.numCells = 1)
      | (_, some _) => false) = true := by
  decide +kernel

/-- **So it is for QCA layouts**: a crossing is written as two dots at each position. -/
theorem C87_false_qca_layer : ¬ (qcaWrite (run (Cells.new "" 1 1) [.type (UCoord.mk3 1 2 0) .normal, .type (UCoord.mk3 1 2 1) .normal])).Nodup := by
  decide +kernel

/-- A document with dots at the given attributes. -/
def dotsDoc (l : List (Text × Text × Text)) : Option (List Xml) :=
  some [.node "siqad".toList [] none [layers .si100 false, .node "design".toList [] none [layer "DB" (l.map fun p =>
    .node "dbdot".toList [] none [.node "latcoord".toList [("n".toList, p.1), ("m".toList, p.2.1), ("l".toList, p.2.2)] none []])]]]

/-- **An invalid sublattice is an error for Cartesian coordinates only**: with SiQAD coordinates, a dot with index 2 is read as
one with index 0. -/
theorem C88_false_index :
    (read offsetKind intDbl .si100 false (dotsDoc [("3".toList, "4".toList, "2".toList)]) (Lay.new offsetKind)).2 = some .parsing ∧
      (match read siqadKind intDbl .si100 false (dotsDoc [("3".toList, "4".toList, "2".toList)]) (Lay.new siqadKind) with
        | (L', none) => decide (L'.cells.getCellType (Siqad.mk3 3 4 false) = .normal)
        | (_, some _) => false) = true := by
  decide +kernel

/-- **A failed attempt leaves its traces**: the dots before a malformed one have been added to the target. -/
theorem C88_false_atomic :
    (match read siqadKind intDbl .si100 false (dotsDoc [("3".toList, "4".toList, "1".toList), ("x".toList, "4".toList, "1".toList)]) (Lay.new siqadKind) with
      | (_, none) => false
      | (L', some e) => decide (e = .number ∧ L'.cells.numCells = 1)) = true := by
  decide +kernel

/-- **The aspect ratio of a target forgets the cells that it had before.** -/
theorem C88_false_target :
    (match read siqadKind intDbl .si100 false (dotsDoc [("3".toList, "4".toList, "1".toList)])
        (built "" [.type (Siqad.mk3 9 9 false) .normal] [] [] (Siqad.mk3 9 9 true)) with
      | (L', none) => decide (L'.cells.getCellType (Siqad.mk3 9 9 false) = .normal ∧ L'.dim = Siqad.mk3 3 4 true)
      | (_, some _) => false) = true := by
  decide +kernel

/-! ## The hypotheses hold in concrete cases -/

/-- Every rational number in unary notation: there are ways to print that lose nothing. -/
def unary : Dbl := ⟨fun r => List.replicate (Encodable.encode r) '1', fun t => Encodable.decode t.length⟩

theorem unary_ok (r : Rat) : unary.get (unary.put r) = some r := by
  simp [unary]

/-- A layout with an input, a normal dot and two defects. -/
def demoOps : List (Cells.Op Siqad sidb) :=
  [.type (Siqad.mk3 0 1 false) .input, .type (Siqad.mk3 (-4) 7 true) .normal, .type (Siqad.mk3 2 2 true) .logic,
    .type (Siqad.mk3 2 2 true) .empty]
def demoDefects : List (Defects.Op Siqad) :=
  [.assign (Siqad.mk3 5 (-3) true) ⟨.siVacancy, -1, 10, 5⟩, .assign (Siqad.mk3 6 6 false) (Defect.ofType .gunk)]

example : ∃ L', read siqadKind unary .si111 true (some [write siqadKind unary .si111 true [] (built "a" demoOps [] demoDefects Siqad.default)])
    (Lay.new siqadKind) = (L', none) ∧ L'.cells.getCellType (Siqad.mk3 (-4) 7 true) = .normal ∧ L'.cells.numCells = 2 ∧
    L'.defects.get (Siqad.mk3 5 (-3) true) = ⟨.siVacancy, -1, 10, 5⟩ ∧ L'.dim.x = 6 ∧ L'.dim.y = 7 := by
  have hcells : (built "a" demoOps [] demoDefects Siqad.default).cells.cells = [Siqad.mk3 (-4) 7 true, Siqad.mk3 0 1 false] := by
    decide +kernel
  have hvis : (built "a" demoOps [] demoDefects Siqad.default).defects.visited =
      [(Siqad.mk3 6 6 false, Defect.ofType .gunk), (Siqad.mk3 5 (-3) true, ⟨.siVacancy, -1, 10, 5⟩)] := by decide +kernel
  obtain ⟨L', h1, h2, h3, h4⟩ := C87_siqad unary unary_ok .si111 [] "a" demoOps [] demoDefects Siqad.default
    (fun c hc => by
      have := (mem_cells (inv_run sidb_lawful (inv_new sidb_lawful _ _ _) demoOps) c).2 hc
      have : c ∈ (built "a" demoOps [] demoDefects Siqad.default).cells.cells := this
      rw [hcells] at this
      simp only [List.mem_cons, List.not_mem_nil, or_false] at this
      rcases this with rfl | rfl <;> (unfold SiqadOk; decide))
    (fun p hp => by
      rw [hvis] at hp
      simp only [List.mem_cons, List.not_mem_nil, or_false] at hp
      rcases hp with rfl | rfl
      · exact ⟨by unfold SiqadOk; decide, by unfold Expressible; decide⟩
      · exact ⟨by unfold SiqadOk; decide, by unfold Expressible; decide⟩)
  refine ⟨L', h1, ?_, ?_, ?_, ?_, ?_⟩
  · rw [h2.types]; decide +kernel
  · rw [h2.numCells]; decide +kernel
  · rw [h2.defects]; decide +kernel
  · rw [hcells, hvis] at h3
    unfold Largest at h3
    simp [Siqad.mk3] at h3
    omega
  · rw [hcells, hvis] at h4
    unfold Largest at h4
    simp [Siqad.mk3] at h4
    omega

example : ∃ parts, Describes siqadKind intDbl .si100 false (dotsDoc [("3".toList, "4".toList, "1".toList)]) parts :=
  (C88_accepts siqadKind intDbl .si100 false _ (Lay.new siqadKind)).1 (by decide +kernel)

example : OffsetOk (UCoord.mk3 7 3 0) ∧ CubeOk (Cube.mk3 7 3 0) := by
  unfold OffsetOk CubeOk
  decide

end Verif.Sqd
