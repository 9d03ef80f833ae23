import Verif.Cells.Model

/-!
# Model of `generate_random_sidb_layout` and `generate_multiple_random_sidb_layouts`
(`algorithms/simulation/sidb/random_sidb_layout_generator.hpp`), with `random_coordinate`,
`are_cell_layouts_identical` and `cell_layout_digest` of `utils/layout_utils.hpp`

Randomness is an input: the theorems quantify over all sequences of numbers drawn.
-/
namespace Verif.SidbDesign

open Verif.Coordinates Verif.Cells

/-! ## Random coordinates -/

/-- A `std::uniform_int_distribution` from `lo` to `hi`, evaluated with the random number `r`; `none` where the
distribution is undefined. Every value from `lo` to `hi` is drawn by some `r`. -/
def uniform (lo hi : Int) (r : Nat) : Option Int := if hi < lo then none else some (lo + ((r : Int) % (hi - lo + 1)))

/-- `random_coordinate` for cube coordinates, layout_utils.hpp:587-594, 605-612. -/
def randomCube (a b : Cube) (r : Nat × Nat × Nat) : Option Cube :=
  let p := if Cube.gtb a b then (b, a) else (a, b)
  match uniform p.1.x p.2.x r.1, uniform p.1.y p.2.y r.2.1, uniform p.1.z p.2.z r.2.2 with
  | some x, some y, some z => some (Cube.mk3 x y z)
  | _, _, _ => none

/-- `std::clamp`. -/
def clampSiqad (c lo hi : Siqad) : Siqad := if Siqad.ltb c lo then lo else if Siqad.ltb hi c then hi else c

/-- `random_coordinate` for SiQAD coordinates, layout_utils.hpp:587-604. -/
def randomSiqad (a b : Siqad) (r : Nat × Nat × Nat) : Option Siqad :=
  let p := if Siqad.gtb a b then (b, a) else (a, b)
  match uniform p.1.x p.2.x r.1, uniform p.1.y p.2.y r.2.1, uniform 0 1 r.2.2 with
  | some x, some y, some z => some (clampSiqad (Siqad.mk3 x y (z = 1)) p.1 p.2)
  | _, _, _ => none

/-! ## Layouts -/

/-- An SiDB layout with defects of type `D`; `defects` is `defective_coordinates` (sidb_defect_surface.hpp:67), without
`NONE` (136-146). Layouts that cannot have defects have none. -/
structure Lyt (C D : Type) where
  cells : State C sidb
  defects : List (C × D) := []

section
variable {C D : Type} [DecidableEq C]

/-- `get_sidb_defect(c).type != NONE`, sidb_defect_surface.hpp:169-177. -/
def Lyt.defective (l : Lyt C D) (c : C) : Bool := (find l.defects c).isSome

/-- `assign_cell_type` on the layout. -/
def Lyt.assign (l : Lyt C D) (c : C) (t : SidbType) : Lyt C D := { l with cells := l.cells.assignCellType c t }

/-- `are_cell_layouts_identical`, layout_utils.hpp:721-772, 809. -/
def identical [DecidableEq D] (a b : Lyt C D) : Bool :=
  if a.cells.numCells ≠ b.cells.numCells then false
  else if a.cells.cells.any (fun c => a.cells.getCellType c ≠ b.cells.getCellType c) then false
  else if b.defects.length ≠ a.defects.length then false
  else if a.defects.any (fun d => find a.defects d.1 ≠ find b.defects d.1) then false
  else true

/-- `hash_combine`, hash.hpp:31-36, of a value whose hash is `h`, on 64 bits. -/
def hashCombine (seed h : BitVec 64) : BitVec 64 := seed ^^^ (h + 0x9e3779b9#64 + (seed <<< 6) + (seed >>> 2))

/-- The scrambling of `hash_combine_unordered`, hash.hpp:59-65. -/
def scramble (h : BitVec 64) : BitVec 64 :=
  let s := h ^^^ (h >>> 30)
  let s := s * 0xbf58476d1ce4e5b9#64
  let s := s ^^^ (s >>> 27)
  let s := s * 0x94d049bb133111eb#64
  s ^^^ (s >>> 31)

/-- The hash functions of the standard library and of the coordinates; nothing is assumed about them. -/
structure Hashes (C D : Type) where
  coord : C → BitVec 64
  type : SidbType → BitVec 64
  defect : D → BitVec 64

/-- `cell_layout_digest`, layout_utils.hpp:827-875; `hash_combine_unordered` adds (hash.hpp:67) and `std::hash` of an
unsigned integer is the integer. -/
def digest (H : Hashes C D) (l : Lyt C D) : BitVec 64 :=
  let cellFold := l.cells.cells.foldl
    (fun f c => f + scramble (hashCombine (hashCombine 0 (H.coord c)) (H.type (l.cells.getCellType c)))) 0
  let d := hashCombine (hashCombine 0 (BitVec.ofNat 64 l.cells.numCells)) cellFold
  let defectFold := l.defects.foldl
    (fun f e => f + scramble (hashCombine (hashCombine 0 (H.coord e.1)) (H.defect e.2))) 0
  hashCombine (hashCombine d (BitVec.ofNat 64 l.defects.length)) defectFold

/-! ## Random layouts -/

/-- `positive_charges`, random_sidb_layout_generator.hpp:35-50. -/
inductive Positive | allowed | forbidden | mayOccur
deriving DecidableEq

/-- `generate_random_sidb_layout_params`, random_sidb_layout_generator.hpp:29-84, without the area, which only
determines the coordinates drawn; `canOccur` is `can_positive_charges_occur` under the given physical parameters. -/
structure Params (C D : Type) where
  number : Nat
  positive : Positive := .allowed
  attempts : Nat := 10000000
  unique : Nat := 1
  uniqueAttempts : Nat := 1000000
  canOccur : Lyt C D → Bool

/-- The body of the loop, random_sidb_layout_generator.hpp:129-163, for the drawn coordinate `c`; `affected` is
`sidbs_affected_by_defects`, `t` is the type of the new dots. -/
def attempt (P : Params C D) (affected : List C) (t : SidbType) (c : C) (l : Lyt C D) : Lyt C D :=
  if !l.defective c && !(decide (c ∈ affected)) then
    let l' := l.assign c t
    if P.positive = .forbidden ∧ P.canOccur l' then l'.assign c .empty else l'
  else l

/-- The loop, random_sidb_layout_generator.hpp:126-165, with the number of attempts left; `i` counts the coordinates
drawn so far. -/
def place (P : Params C D) (affected : List C) (t : SidbType) (target : Nat) (draw : Nat → C) :
    Nat → Nat → Lyt C D → Lyt C D × Nat
  | 0, i, l => (l, i)
  | n + 1, i, l =>
    if l.cells.numCells < target then place P affected t target draw n (i + 1) (attempt P affected t (draw i) l)
    else (l, i)

/-- A new layout. -/
def blank : Lyt C D := ⟨new, []⟩

/-- `generate_random_sidb_layout`, random_sidb_layout_generator.hpp:99-181; `skeleton` comes with its
`all_affected_sidbs`. The result comes with the number of coordinates drawn. `none` if the recursion has not come to an
end after `fuel` calls. -/
def generate (P : Params C D) (skeleton : Option (Lyt C D × List C)) (draw : Nat → C) : Nat → Nat →
    Option (Option (Lyt C D) × Nat)
  | 0, _ => none
  | fuel + 1, i =>
    let s : Lyt C D × List C × Nat × SidbType := match skeleton with
      | some (l, aff) => (l, aff, P.number + l.cells.numCells, .logic)
      | none => (blank, [], P.number, .normal)
    let r := place P s.2.1 s.2.2.2 s.2.2.1 draw P.attempts i s.1
    if P.positive = .mayOccur ∧ P.canOccur r.1 = false then generate P skeleton draw fuel r.2
    else if r.1.cells.numCells = s.2.2.1 then some (some r.1, r.2)
    else some (none, r.2)

/-- The loop of `generate_multiple_random_sidb_layouts`, random_sidb_layout_generator.hpp:212-235; `ds` is
`collected_digests`, `bad` is `unsuccessful_generation_attempt_counter`. The result comes
with the final value of `bad`. `none` if the loop or one of the calls has not come to an end after `fuel` steps. -/
def multiLoop [DecidableEq D] (P : Params C D) (skeleton : Option (Lyt C D × List C)) (H : Hashes C D) (draw : Nat → C) (calls : Nat) :
    Nat → Nat → List (Lyt C D) → List (BitVec 64 × Nat) → Nat → Option (List (Lyt C D) × Nat)
  | 0, _, _, _, _ => none
  | fuel + 1, i, us, ds, bad =>
    if us.length < P.unique ∧ bad < P.uniqueAttempts then
      match generate P skeleton draw calls i with
      | none => none
      | some (some l, j) =>
        let d := digest H l
        if (ds.filter (fun e => e.1 = d)).any (fun e => us[e.2]?.any (fun u => identical l u)) then
          multiLoop P skeleton H draw calls fuel j us ds (bad + 1)
        else multiLoop P skeleton H draw calls fuel j (us ++ [l]) (ds ++ [(d, us.length)]) bad
      | some (none, j) => multiLoop P skeleton H draw calls fuel j us ds (bad + 1)
    else some (us, bad)

/-- `generate_multiple_random_sidb_layouts`, random_sidb_layout_generator.hpp:193-239. The inner `none` is
`std::nullopt`. -/
def generateMultiple [DecidableEq D] (P : Params C D) (skeleton : Option (Lyt C D × List C)) (H : Hashes C D) (draw : Nat → C)
    (calls fuel : Nat) : Option (Option (List (Lyt C D))) :=
  (multiLoop P skeleton H draw calls fuel 0 [] [] 0).map (fun r => if r.1.isEmpty then none else some r.1)

end
end Verif.SidbDesign
