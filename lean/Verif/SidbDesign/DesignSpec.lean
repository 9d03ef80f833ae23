import Verif.SidbDesign.Design
import Verif.Cells.Lemmas

/-!
# What it means to design all gates
-/
namespace Verif.SidbDesign

open Verif.Coordinates Verif.Cells

section
variable {C D : Type} [DecidableEq C]

/-- A position of the canvas where the skeleton has neither a dot nor a defect. -/
def Setting.FreePos (S : Setting C D) (c : C) : Prop :=
  c ∈ S.canvas ∧ S.skeleton.cells.getCellType c = .empty ∧ S.skeleton.defective c = false

/-- `l` is the skeleton with logic dots at `ds`. -/
structure Setting.HasDots (S : Setting C D) (l : Lyt C D) (ds : List C) : Prop where
  inv : Inv l.cells
  defects : l.defects = S.skeleton.defects
  cell : ∀ c, l.cells.getCellType c = if c ∈ ds then .logic else S.skeleton.cells.getCellType c

/-- A way to place the requested number of dots. -/
structure Setting.Placement (S : Setting C D) (ds : List C) : Prop where
  nodup : ds.Nodup
  number : ds.length = S.number
  free : ∀ c ∈ ds, S.FreePos c

/-- The answer depends on the layout only. -/
def OfLayout (f : Lyt C D → Bool) : Prop := ∀ l l' : Lyt C D, Inv l.cells → Inv l'.cells → l.defects = l'.defects →
  (∀ c, l.cells.getCellType c = l'.cells.getCellType c) → f l = f l'

/-- `out` are gates for which `good` holds. -/
def Setting.Gates (S : Setting C D) (good : Lyt C D → Bool) (out : List (Lyt C D)) : Prop :=
  ∀ l ∈ out, good l = true ∧ ∃ ds, S.Placement ds ∧ S.HasDots l ds

/-- `out` are all gates for which `good` holds, each of them once. -/
structure Setting.AllGates (S : Setting C D) (good : Lyt C D → Bool) (out : List (Lyt C D)) : Prop where
  sound : S.Gates good out
  complete : ∀ ds l, S.Placement ds → S.HasDots l ds → good l = true → ∃ l' ∈ out, S.HasDots l' ds
  once : out.Pairwise (fun l l' => ∃ c, l.cells.getCellType c ≠ l'.cells.getCellType c)

/-- `out` are some gates for which `good` holds, at most one for each thread, at least one if there is any, none of them
twice. -/
structure Setting.SomeGates (S : Setting C D) (good : Lyt C D → Bool) (out : List (Lyt C D)) : Prop where
  sound : S.Gates good out
  few : out.length ≤ S.threads
  any : (∃ ds l, S.Placement ds ∧ S.HasDots l ds ∧ good l = true) → out ≠ []
  once : out.Pairwise (fun l l' => ∃ c, l.cells.getCellType c ≠ l'.cells.getCellType c)

end
end Verif.SidbDesign
