import Verif.Io.Fqca

/-!
# What is preserved by writing and reading an FQCA file
-/
namespace Verif.Io

open Verif.Cells

/-- A position within the layout. -/
def Lyt.Within (L : Lyt) (p : Pos) : Prop := p.x ≤ L.dim.x ∧ p.y ≤ L.dim.y ∧ p.z ≤ L.dim.z

instance (L : Lyt) (p : Pos) : Decidable (L.Within p) := by unfold Lyt.Within; infer_instance

/-- There is a cell at the position. -/
def Lyt.Present (L : Lyt) (p : Pos) : Prop := L.Within p ∧ L.ty p ≠ .empty

instance (L : Lyt) (p : Pos) : Decidable (L.Present p) := by unfold Lyt.Present; infer_instance

/-- The cell has a name or is a primary input or output: it needs a designator of its own. -/
def Lyt.Special (L : Lyt) (p : Pos) : Prop := L.Present p ∧ (L.name p ≠ [] ∨ L.ty p = .input ∨ L.ty p = .output)

instance (L : Lyt) (p : Pos) : Decidable (L.Special p) := by unfold Lyt.Special; infer_instance

/-- The file format can express the layout's texts and numbers. -/
structure Lyt.Writable (L : Lyt) : Prop where
  title : '\n' ∉ L.title
  names : ∀ p, L.Present p → '\n' ∉ L.name p
  clocks : ∀ p, L.Within p → L.clock p < 10

/-- The layout `R` read from the file of `L`: cells are at the same positions, with the mode of their layer and without
white space in their names. Constants with a name become normal cells; otherwise constants lose their clock
number. -/
structure ReadBack (L R : Lyt) : Prop where
  ty : ∀ p, R.ty p = if L.Present p then
    (if L.Special p ∧ (L.ty p = .const0 ∨ L.ty p = .const1) then .normal else L.ty p) else .empty
  name : ∀ p, R.name p = if L.Present p then (L.name p).filter fun c => !isSpace c else []
  clock : ∀ p, R.clock p = if L.Present p ∧ (L.Special p ∨ L.ty p = .normal) then L.clock p % 4 else 0
  mode : ∀ p, R.mode p = if L.Present p ∧ p.z ≠ 0 then (if p.z % 2 = 0 then .crossover else .vertical) else .normal
  inside : ∀ p, L.Present p → R.Within p
  tight : (R.dim.x = 0 ∨ ∃ p, L.Present p ∧ p.x = R.dim.x) ∧ (R.dim.y = 0 ∨ ∃ p, L.Present p ∧ p.y = R.dim.y) ∧
    (R.dim.z = 0 ∨ ∃ p, L.Present p ∧ p.z = R.dim.z)

/-- The layout with additional layers in between that hold the vias: a cell above each cell of mode `VERTICAL` that is
not in the topmost layer. -/
def Lyt.withVias (L : Lyt) : Lyt where
  title := L.title
  dim := ⟨L.dim.x, L.dim.y, 2 * L.dim.z⟩
  ty p := if p.z % 2 = 0 then L.ty ⟨p.x, p.y, p.z / 2⟩
    else if L.mode ⟨p.x, p.y, p.z / 2⟩ = .vertical then .normal else .empty
  mode p := L.mode ⟨p.x, p.y, p.z / 2⟩
  name p := if p.z % 2 = 0 then L.name ⟨p.x, p.y, p.z / 2⟩ else []
  clock p := L.clock ⟨p.x, p.y, p.z / 2⟩

/-- All that is said about the layout is expressed by the file. -/
structure Lyt.Expressible (L : Lyt) : Prop where
  within : ∀ p, L.ty p ≠ .empty → L.Within p
  title : '\n' ∉ L.title
  names : ∀ p, ∀ c ∈ L.name p, isSpace c = false
  emptyNames : ∀ p, L.ty p = .empty → L.name p = []
  clocks : ∀ p, L.clock p < 4
  emptyClocks : ∀ p, L.ty p = .empty → L.clock p = 0
  constants : ∀ p, L.ty p = .const0 ∨ L.ty p = .const1 → L.name p = [] ∧ L.clock p = 0
  modes : ∀ p, L.mode p = if L.ty p ≠ .empty ∧ p.z ≠ 0 then (if p.z % 2 = 0 then .crossover else .vertical) else .normal
  tight : (L.dim.x = 0 ∨ ∃ p, L.Present p ∧ p.x = L.dim.x) ∧ (L.dim.y = 0 ∨ ∃ p, L.Present p ∧ p.y = L.dim.y) ∧
    (L.dim.z = 0 ∨ ∃ p, L.Present p ∧ p.z = L.dim.z)

end Verif.Io
