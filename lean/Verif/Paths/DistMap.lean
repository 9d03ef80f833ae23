import Verif.Layouts.Model

/-!
# Model of distance maps and caches

`algorithms/path_finding/distance_map.hpp`, for offset coordinates. A distance function is any function of two coordinates; for the cache, which
may be called with different layouts, of a layout and two coordinates.
-/
namespace Verif.DistMap
open Layouts

variable {D Lyt : Type}

/-- The coordinates of a layout in the order of `foreach_coordinate`, which C03 derives from the iterator (cartesian_layout.hpp `coordinates`). -/
def coords (m : Dim) : List Coord :=
  (List.range (m.Z + 1)).flatMap fun z => (List.range (m.Y + 1)).flatMap fun y => (List.range (m.X + 1)).map fun x => ⟨x, y, z, false⟩

/-- `area`, coordinates.hpp:870-879. -/
def area (m : Dim) : Nat := (m.X + 1) * (m.Y + 1)

/-- `dist_map[src][tgt] = d`; `none` for an access beyond the vectors, which is undefined. -/
def setAt (M : List (List D)) (i j : Nat) (d : D) : Option (List (List D)) :=
  match M[i]? with
  | none => none
  | some row => if j < row.length then some (M.set i (row.set j d)) else none

/-- `initialize_distance_map`, distance_map.hpp:54-71; `zero` is `Dist{}`. -/
def initMap (zero : D) (m : Dim) (dist : Coord → Coord → D) : Option (List (List D)) :=
  (coords m).zipIdx.foldl (fun acc x => (coords m).zipIdx.foldl (fun acc y => acc.bind fun M => setAt M x.2 y.2 (dist x.1 y.1)) acc)
    (some (List.replicate (area m) (List.replicate (area m) zero)))

/-- `coordinate_index`, distance_map.hpp:158-161. -/
def index (m : Dim) (c : Coord) : Nat := c.y * (m.X + 1) + c.x

/-- `distance_map_functor::operator()`, distance_map.hpp:138-142; `none` if `at` throws. -/
def lookup (M : List (List D)) (m : Dim) (a b : Coord) : Option D := (M[index m a]?).bind fun row => row[index m b]?

/-- `initialize_sparse_distance_map`, distance_map.hpp:87-105. The map gives the value of a pair of coordinates, if it has one. -/
def initSparse (m : Dim) (dist : Coord → Coord → D) : Coord × Coord → Option D :=
  (coords m).foldl (fun M a => (coords m).foldl (fun M b p => if p = (a, b) then some (dist a b) else M p) M) (fun _ => none)

/-- `sparse_distance_map_functor::operator()`, distance_map.hpp:194-198; `none` if `at` throws. -/
def sparseLookup (M : Coord × Coord → Option D) (a b : Coord) : Option D := M (a, b)

/-- `smart_distance_cache_functor::operator()`, distance_map.hpp:246-261: the answer and the cache. -/
def cached (dist : Lyt → Coord → Coord → D) (M : Coord × Coord → Option D) (l : Lyt) (a b : Coord) : D × (Coord × Coord → Option D) :=
  match M (a, b) with
  | some d => (d, M)
  | none => (dist l a b, fun p => if p = (a, b) then some (dist l a b) else M p)

/-- The answers to a history of calls. -/
def answers (dist : Lyt → Coord → Coord → D) : (Coord × Coord → Option D) → List (Lyt × Coord × Coord) → List D
  | _, [] => []
  | M, (l, a, b) :: calls => (cached dist M l a b).1 :: answers dist (cached dist M l a b).2 calls

end Verif.DistMap
