import Verif.Io.Sqd
import Verif.Defects.ReaderSpec
import Mathlib.Data.List.Forall2

/-!
# What an SQD file says

Elements are read through `Xml.first`, `Xml.all`, `Xml.attr` and `Xml.text` only.
-/
namespace Verif.Sqd

open Verif.Coordinates Verif.Cells Verif.Defects

/-- `s` begins with a decimal number `i` that fits into 64 bits: white space, at most one sign, digits, and then anything that is
no digit. -/
def IntText (i : Int) (s : Text) : Prop :=
  ∃ (w sign ds rest : Text) (k : Nat), s = w ++ sign ++ ds ++ rest ∧ (∀ c ∈ w, White c) ∧ Numeral k ds ∧
    (∀ c, rest.head? = some c → ¬ Digit c) ∧ (sign = [] ∧ i = k ∨ sign = ['+'] ∧ i = k ∨ sign = ['-'] ∧ i = -(k : Int)) ∧
    -2 ^ 63 ≤ i ∧ i < 2 ^ 63

section
variable {C : Type} (K : Kind C) (F : Dbl) (o : Orient) (iface : Bool)

/-- The element `latcoord` names the position `c`. -/
def Position (x : Xml) (c : C) : Prop :=
  ∃ n m l : Text, x.attr "n".toList = some n ∧ x.attr "m".toList = some m ∧ x.attr "l".toList = some l ∧
    ∃ i j k : Int, IntText i n ∧ IntText j m ∧ IntText k l ∧ K.get i j k = .ok c

/-- The words for the types of dots. -/
def TypeWord (t : SidbType) (w : Text) : Prop :=
  t = .input ∧ w = "input".toList ∨ t = .output ∧ w = "output".toList ∨ t = .normal ∧ w = "normal".toList ∨
    t = .logic ∧ w = "logic".toList

/-- The element `dbdot` describes a dot of type `p.2` at `p.1`. -/
def IsDot (e : Xml) (p : C × SidbType) : Prop :=
  (∃ x, e.first "latcoord".toList = some x ∧ Position K x p.1) ∧
    (e.first "type".toList = none ∧ p.2 = .normal ∨ ∃ x w, e.first "type".toList = some x ∧ x.text = some w ∧ TypeWord p.2 w)

/-- The words for the types of defects, in lower case. -/
def labels : List (DefectType × Text) :=
  [(.none, "h-si".toList), (.db, "db".toList), (.siVacancy, "vacancy".toList), (.singleDihydride, "single_dihydride".toList),
    (.dihydridePair, "dihydride".toList), (.oneByOne, "1by1".toList), (.threeByOne, "3by1".toList),
    (.siloxane, "siloxane".toList), (.raisedSi, "raised_silicon".toList), (.missingDimer, "missing_dimer".toList),
    (.etchPit, "etch_pit".toList), (.stepEdge, "step_edge".toList), (.gunk, "gunk".toList), (.unknown, "unknown".toList)]

/-- A word names a type of defects regardless of the case; all other words stand for an unknown defect. -/
def LabelWord (t : DefectType) (w : Text) : Prop :=
  (t, w.map Char.toLower) ∈ labels ∨ t = .unknown ∧ ∀ u, (u, w.map Char.toLower) ∉ labels

/-- The label of a defect. -/
def label (e : Xml) : Option Xml :=
  (e.first "property_map".toList).bind fun p => (p.first "type_label".toList).bind fun l => l.first "val".toList

/-- The element `defect` describes the defect `p.2` at the positions `p.1`. -/
def IsDefect (e : Xml) (p : List C × Defect) : Prop :=
  (e.first "incl_coords".toList = none ∧ p.1 = [] ∨
    ∃ x, e.first "incl_coords".toList = some x ∧ p.1 ≠ [] ∧ List.Forall₂ (Position K) (x.all "latcoord".toList) p.1) ∧
  (label e = none ∧ p.2.type = .unknown ∨ ∃ v w, label e = some v ∧ v.text = some w ∧ LabelWord p.2.type w) ∧
  (e.first "coulomb".toList = none ∧ p.2.charge = 0 ∧ p.2.epsilonR = 0 ∧ p.2.lambdaTf = 0 ∨
    ∃ x q r l, e.first "coulomb".toList = some x ∧ x.attr "charge".toList = some q ∧ x.attr "eps_r".toList = some r ∧
      x.attr "lambda_tf".toList = some l ∧ IntText p.2.charge q ∧ F.get r = some p.2.epsilonR ∧ F.get l = some p.2.lambdaTf)

/-- What a layer holds: dots, and defects with their positions. -/
structure Part (C : Type) where
  dots : List (C × SidbType)
  defects : List (List C × Defect)

/-- The element `layer` holds the given dots and defects. -/
def Holds (e : Xml) (p : Part C) : Prop :=
  ∃ t, e.attr "type".toList = some t ∧
    (t = "DB".toList ∧ List.Forall₂ (IsDot K) (e.all "dbdot".toList) p.dots ∧ p.defects = [] ∨
      t = "Defects".toList ∧ iface = true ∧ p.dots = [] ∧ List.Forall₂ (IsDefect K F) (e.all "defect".toList) p.defects ∨
      (t = "Defects".toList ∧ iface = false ∨ t ≠ "DB".toList ∧ t ≠ "Defects".toList) ∧ p.dots = [] ∧ p.defects = [])

/-- The lattice vectors are those of the orientation; without a name they are those of `Si(100) 2x1`. -/
def Oriented (v : Xml) : Prop :=
  match (v.first "name".toList).bind Xml.text with
  | none => o = .si100
  | some w => o = .si100 ∧ w = "Si(100) 2x1".toList ∨ o = .si111 ∧ w = "Si(111) 1x1".toList

/-- The document describes the dots and the defects of the layers in the order of the file. -/
def Describes (doc : Option (List Xml)) (parts : List (Part C)) : Prop :=
  ∃ es root ls lp v d, doc = some es ∧ es.find? (fun e => e.tag = "siqad".toList) = some root ∧
    root.first "layers".toList = some ls ∧ ls.first "layer_prop".toList = some lp ∧ lp.first "lat_vec".toList = some v ∧
    Oriented o v ∧ root.first "design".toList = some d ∧ List.Forall₂ (Holds K F iface) (d.all "layer".toList) parts

variable {K F o iface}

/-- All dots. -/
def allDots (parts : List (Part C)) : List (C × SidbType) := parts.flatMap Part.dots
/-- All defects at single positions. -/
def allDefects (parts : List (Part C)) : List (C × Defect) :=
  parts.flatMap fun p => p.defects.flatMap fun q => q.1.map fun c => (c, q.2)

/-- The last entry of a list for a key. -/
def lastOf {V : Type} [DecidableEq C] (l : List (C × V)) (c : C) : Option V := find l.reverse c

/-- `v` is the largest value of `f` on the given positions and zero. -/
def Largest (f : C → Int) (S : List C) (v : Int) : Prop := (v = 0 ∨ ∃ c ∈ S, f c = v) ∧ 0 ≤ v ∧ ∀ c ∈ S, f c ≤ v

end
end Verif.Sqd
