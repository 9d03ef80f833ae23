import Verif.Cells.Model
import Verif.Library.Apply

/-!
# Model of `technology/sidb_defects.hpp` and `technology/sidb_defect_surface.hpp`

The hash map of defects is a list without repeated keys, whose order is unspecified in the code and used by no theorem. The
two floating-point fields of a defect are rational numbers here; nothing in these files computes with them. Surfaces are
modelled by value: copies of a surface share their storage in the code, `clone` separates it.
-/
namespace Verif.Defects

open Verif.Cells Verif.Library

/-- `sidb_defect_type`, sidb_defects.hpp:25-89. -/
inductive DefectType
  | none | db | siVacancy | singleDihydride | dihydridePair | oneByOne | threeByOne | siloxane | raisedSi | missingDimer
  | etchPit | stepEdge | gunk | arsenic | unknown
deriving DecidableEq, Repr

/-- `sidb_defect`, sidb_defects.hpp:99-138. -/
structure Defect where
  type : DefectType
  charge : Int
  epsilonR : Rat
  lambdaTf : Rat
deriving DecidableEq, Repr

/-- `sidb_defect{t}`: the constructor with its default arguments, sidb_defects.hpp:104-114. -/
def Defect.ofType (t : DefectType) : Defect := ⟨t, 0, 0, 0⟩

/-- `is_charged_defect_type`, sidb_defects.hpp:147-151. -/
def Defect.isChargedType (d : Defect) : Bool :=
  d.charge != 0 || d.type == .db || d.type == .siVacancy || d.type == .arsenic
/-- `is_neutral_defect_type`, sidb_defects.hpp:160-163. -/
def Defect.isNeutralType (d : Defect) : Bool := d.type != .none && !d.isChargedType
/-- `is_positively_charged_defect`, sidb_defects.hpp:171-174. -/
def Defect.isPositive (d : Defect) : Bool := decide (d.charge > 0)
/-- `is_negatively_charged_defect`, sidb_defects.hpp:182-185. -/
def Defect.isNegative (d : Defect) : Bool := decide (d.charge < 0)

/-- `defect_extent`, sidb_defects.hpp:229-252, with the constants of 201-216: how far a defect reaches horizontally and
vertically. -/
def extent (d : Defect) (charged neutral : Option (Nat × Nat)) : Nat × Nat :=
  if d.isChargedType then
    match charged with
    | some p => p
    | none => (26, 13)
  else if d.isNeutralType then
    match neutral with
    | some p => p
    | none => (1, 0)
  else (0, 0)

/-- The storage of a surface, sidb_defect_surface.hpp:61-68. -/
structure Surface (C : Type) where
  ignore : List DefectType
  defects : List (C × Defect)

section Surf
variable {C : Type} [DecidableEq C]

/-- A new surface, sidb_defect_surface.hpp:77-117. -/
def Surface.new (ignore : List DefectType) : Surface C := ⟨ignore, []⟩

/-- `map.insert({k, v})`: an existing entry is kept. -/
def insertNew (m : List (C × Defect)) (c : C) (d : Defect) : List (C × Defect) :=
  if (find m c).isSome then m else (c, d) :: m

/-- `assign_sidb_defect`, sidb_defect_surface.hpp:136-146. -/
def Surface.assign (s : Surface C) (c : C) (d : Defect) : Surface C :=
  let m := erase s.defects c
  if d.type ≠ .none ∧ d.type ∉ s.ignore then { s with defects := insertNew m c d } else { s with defects := m }

/-- `get_sidb_defect`, sidb_defect_surface.hpp:169-177. -/
def Surface.get (s : Surface C) (c : C) : Defect :=
  match find s.defects c with
  | some d => d
  | none => Defect.ofType .none

/-- `move_sidb_defect`, sidb_defect_surface.hpp:153-162. -/
def Surface.move (s : Surface C) (source target : C) : Surface C :=
  let d := s.get source
  if d.type ≠ .none then { s with defects := erase (insertNew s.defects target d) source } else s

/-- The pairs visited by `foreach_sidb_defect`, sidb_defect_surface.hpp:263-268. -/
def Surface.visited (s : Surface C) : List (C × Defect) := s.defects
/-- `num_defects`, sidb_defect_surface.hpp:183-186. -/
def Surface.numDefects (s : Surface C) : Nat := s.defects.length
/-- `num_positively_charged_defects`, sidb_defect_surface.hpp:192-206. -/
def Surface.numPositive (s : Surface C) : Nat := s.visited.foldl (fun n p => if p.2.isPositive then n + 1 else n) 0
/-- `num_negatively_charged_defects`, sidb_defect_surface.hpp:212-226. -/
def Surface.numNegative (s : Surface C) : Nat := s.visited.foldl (fun n p => if p.2.isNegative then n + 1 else n) 0
/-- `num_charged_defects`, sidb_defect_surface.hpp:232-235. -/
def Surface.numCharged (s : Surface C) : Nat := s.numPositive + s.numNegative
/-- `num_neutral_defects`, sidb_defect_surface.hpp:241-255. -/
def Surface.numNeutral (s : Surface C) : Nat := s.visited.foldl (fun n p => if p.2.isNeutralType then n + 1 else n) 0

/-- The operations that change a surface. -/
inductive Op (C : Type)
  | assign (c : C) (d : Defect)
  | move (source target : C)

/-- One operation. -/
def Surface.step (s : Surface C) : Op C → Surface C
  | .assign c d => s.assign c d
  | .move a b => s.move a b

/-- A sequence of operations. -/
def Surface.run (s : Surface C) (ops : List (Op C)) : Surface C := ops.foldl Surface.step s

end Surf
end Verif.Defects
