import Verif.Paths.Props

/-!
# Model of Yen's algorithm

`algorithms/path_finding/k_shortest_paths.hpp` and the obstruction sets of `layouts/obstruction_layout.hpp`. If the
given layout already is an obstruction layout, its sets are shared (obstruction_layout.hpp:36-40, 179), otherwise
they start empty.
-/
namespace Verif.Paths

open Verif.Layouts Verif.Clocking

/-- The two sets of an obstruction layout, obstruction_layout.hpp:46-52. -/
structure Obs where
  coords : List Coord
  conns : List (Coord × Coord)

/-- `is_obstructed_coordinate` and `is_obstructed_connection`, obstruction_layout.hpp:134-176. The answers of `l` are
those of the underlying layout. -/
def RLayout.withObs (l : RLayout) (o : Obs) : RLayout :=
  { l with
    obstructed := fun c => decide (c ∈ o.coords) || l.obstructed c
    obstructedConn := fun u v => decide ((u, v) ∈ o.conns) || l.obstructedConn u v }

/-- `obstruct_coordinate` and `obstruct_connection` on several elements, obstruction_layout.hpp:77-92. -/
def Obs.block (o : Obs) (cs : List Coord) (es : List (Coord × Coord)) : Obs := ⟨cs ++ o.coords, es ++ o.conns⟩

/-- `reset_temporary_obstructions`, k_shortest_paths.hpp:212-225. -/
def Obs.clear (o : Obs) (cs : List Coord) (es : List (Coord × Coord)) : Obs :=
  ⟨o.coords.filter fun c => decide (c ∉ cs), o.conns.filter fun e => decide (e ∉ es)⟩

/-- `operator<` of coordinates, coordinates.hpp:214-234: by layer, row and column. -/
def coordLt (a b : Coord) : Bool :=
  if a.z ≠ b.z then decide (a.z < b.z) else if a.y ≠ b.y then decide (a.y < b.y) else decide (a.x < b.x)

/-- `operator<` of vectors. -/
def pathLt : List Coord → List Coord → Bool
  | _, [] => false
  | [], _ :: _ => true
  | a :: p, b :: q => if coordLt a b then true else if coordLt b a then false else pathLt p q

/-- The position of a new element of a `std::set` of paths. -/
def insertPath (p : List Coord) : List (List Coord) → List (List Coord)
  | [] => [p]
  | q :: l => if pathLt p q then p :: q :: l else q :: insertPath p l

/-- `path_set::add`, routing_utils.hpp:111-117. -/
def addPath (p : List Coord) (l : List (List Coord)) : List (List Coord) := if p ∈ l then l else insertPath p l

/-- `std::ranges::min_element` by the number of coordinates, k_shortest_paths.hpp:151-153, 205-208. -/
def shortest (best : List Coord) : List (List Coord) → List Coord
  | [] => best
  | p :: l => shortest (if p.length < best.length then p else best) l

/-- The connections that are blocked for the spur with the given root, k_shortest_paths.hpp:91-103. -/
def usedConns (paths : List (List Coord)) (root : List Coord) (i : Nat) : List (Coord × Coord) :=
  paths.filterMap fun p =>
    if p.take i = root then
      match p[i]?, p[i + 1]? with
      | some a, some b => some (a, b)
      | _, _ => none
    else none

/-- One iteration of the loop over the spurs, k_shortest_paths.hpp:82-142. `search` is `a_star` on the layout with the
given obstructions. -/
def spurStep (search : Obs → Coord → Option (List Coord)) (paths : List (List Coord)) (latest : List Coord)
    (st : Obs × List (List Coord)) (i : Nat) : Option (Obs × List (List Coord)) :=
  match latest[i]? with
  | none => none
  | some spur =>
    let root := latest.take i
    let es := usedConns paths root i
    let cs := root.filter fun c => decide (c ≠ spur)
    let o := st.1.block cs es
    match search o spur with
    | none => none
    | some sp => some (o.clear cs es, if sp = [] then st.2 else addPath (root ++ sp) st.2)

/-- The loop over `k`, k_shortest_paths.hpp:77-159: paths, obstructions and candidates. The first argument is the
number of remaining iterations. -/
def yenLoop (search : Obs → Coord → Option (List Coord)) :
    Nat → List (List Coord) → Obs → List (List Coord) → Option (List (List Coord) × Obs)
  | 0, paths, o, _ => some (paths, o)
  | n + 1, paths, o, cands =>
    match paths.getLast? with
    | none => none
    | some latest =>
      match (List.range (latest.length - 1)).foldlM (spurStep search paths latest) (o, cands) with
      | none => none
      | some (o, []) => some (paths, o)
      | some (o, c :: cs) =>
        let p := shortest c cs
        yenLoop search n (paths ++ [p]) o ((c :: cs).erase p)

/-- `yen_k_shortest_paths`, k_shortest_paths.hpp:44-74 and 271-279: the paths and the obstructions of the layout
afterwards. -/
def yen (q : Queue Coord Nat) (l : RLayout) (o : Obs) (crossings : Bool) (source target : Coord) (k fuel : Nat) :
    Option (List (List Coord) × Obs) :=
  let search := fun (o : Obs) (s : Coord) => aStarLayout q (l.withObs o) crossings unitCost manhattan s target fuel
  match search o source with
  | none => none
  | some [] => some ([], o)
  | some p => yenLoop search (k - 1) [p] o []

end Verif.Paths
