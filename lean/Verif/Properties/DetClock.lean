import Verif.Properties.DrvProps

/-!
# Determining a clocking

Model of `include/fiction/algorithms/physical_design/determine_clocking.hpp`. The SAT solver is a parameter.
-/
namespace Verif.DetClock

open Verif.Layouts Verif.Clocking Verif.GateLevel

/-- What is handed to the solver: clauses, as lists of variables with a polarity, and `bill::add_tseytin_equals` (external,
by specification: the two variables have the same value). -/
inductive Con where
  | clause (lits : List (Nat × Bool))
  | eq (a b : Nat)
  deriving DecidableEq

/-- `bill::solver::solve`, `get_model` (external): a satisfying assignment, if the solver found one. -/
abbrev Solver := List Con → Option (Nat → Bool)

/-- The variables: which (tile, clock number) pairs have a variable, and the number of variables. -/
structure Vars where
  map : Coord × Nat → Option Nat := fun _ => none
  num : Nat := 0

/-- `variables[key] = solver.add_variable()`, determine_clocking.hpp:84-88. -/
def Vars.add (v : Vars) (key : Coord × Nat) : Vars :=
  ⟨fun k => if k = key then some v.num else v.map k, v.num + 1⟩

/-- `variables[key]`, e.g. determine_clocking.hpp:161. `operator[]` makes absent keys refer to variable 0. -/
def Vars.get (v : Vars) (key : Coord × Nat) : Nat := (v.map key).getD 0

section
variable (m : Dim) (tp : Topo) (cs : Scheme) (s : State)

/-- `foreach_node` without the constants, e.g. determine_clocking.hpp:73-82: the tiles of the nodes. -/
def nodeTiles : List Coord := (s.allNodes.filter (fun n => !isConstant n)).map s.getTile

/-- `sat_clocking_handler`, determine_clocking.hpp:70-90. -/
def mkVars : Vars :=
  ((nodeTiles s).flatMap (fun t => (List.range cs.numClocks).map (fun c => (t, c)))).foldl Vars.add {}

/-- `at_least_one_clock_number_per_tile`, determine_clocking.hpp:143-167. -/
def atLeastOne (v : Vars) : List Con :=
  (nodeTiles s).map (fun t => .clause ((List.range cs.numClocks).map (fun c => (v.get (t, c), true))))

/-- `at_most_one_clock_number_per_tile`, determine_clocking.hpp:171-196. -/
def atMostOne (v : Vars) : List Con :=
  (List.range cs.numClocks).flatMap fun c1 => ((List.range cs.numClocks).filter (fun c2 => c1 < c2)).flatMap fun c2 =>
    (nodeTiles s).map (fun t => .clause [(v.get (t, c1), false), (v.get (t, c2), false)])

/-- `exclude_clock_assignments_that_violate_information_flow`, determine_clocking.hpp:200-236, with
`incoming_data_flow<false>`, gate_level_layout.hpp:1141-1151. -/
def flowCons (v : Vars) : List Con :=
  (nodeTiles s).flatMap fun t1 => (s.fanins m tp cs false (s.getNode t1)).flatMap fun t2 =>
    (List.range cs.numClocks).flatMap fun c1 =>
      ((List.range cs.numClocks).filter (fun c2 => !((c2 + 1) % cs.numClocks == c1))).map fun c2 =>
        .clause [(v.get (t1, c1), false), (v.get (t2, c2), false)]

/-- `ensure_same_clock_number_on_crossing_tiles`, determine_clocking.hpp:240-264. -/
def crossCons (v : Vars) : List Con :=
  (s.allWires.filter (fun w => !isGroundLayer (s.getTile w))).flatMap fun w =>
    (List.range cs.numClocks).map fun c => .eq (v.get (s.getTile w, c)) (v.get (Cart.below (s.getTile w), c))

/-- The lambda `recurse` of `symmetry_breaking`, determine_clocking.hpp:271-286: the clauses it adds and the next value of
the clock number, which all calls share. `return false` in the function passed to `foreach_fanout` has no effect, because
`foreach_fanout` applies it to ranges of one node (see `State.fanouts`). `none`: it does not terminate. -/
def recurse (v : Vars) : Nat → Nat → Nat → Option (List Con × Nat)
  | 0, _, _ => none
  | fuel + 1, clk, n =>
    (s.fanouts m tp cs true n).foldlM (fun (p : List Con × Nat) fon =>
      (recurse v fuel p.2 fon).map (fun q => (p.1 ++ q.1, q.2)))
      ([.clause [(v.get (s.getTile n, clk % cs.numClocks), true)]], clk + 1)

/-- `symmetry_breaking`, determine_clocking.hpp:269-296. -/
def symmetryCons (v : Vars) (fuel : Nat) : Option (List Con) :=
  match s.inputs with
  | [] => some []
  | pi :: _ => (recurse m tp cs s v fuel 0 pi).map (·.1)

/-- `assign_clock_numbers`, determine_clocking.hpp:302-327. -/
def assignments (v : Vars) (model : Nat → Bool) : List (Coord × Nat) :=
  (nodeTiles s).flatMap fun t => (List.range cs.numClocks).flatMap fun c =>
    if model (v.get (t, c)) then [(t, c), (Cart.above m t, c), (Cart.below t, c)] else []

/-- The clocking scheme after `assign_clock_numbers`, determine_clocking.hpp:302-327. -/
def assignClockNumbers (v : Vars) (model : Nat → Bool) : Scheme :=
  (assignments m cs s v model).foldl (fun k (p : Coord × Nat) => k.overrideClockNumber p.1 p.2) cs

/-- `determine_clocking`, determine_clocking.hpp:98-116, 340-379: the returned value, and the clocking scheme of the layout
afterwards. -/
def determineClocking (solve : Solver) (fuel : Nat) : Option (Bool × Scheme) :=
  if Drv.layoutEmpty s then some (true, cs)
  else
    let v := mkVars cs s
    match symmetryCons m tp cs s v fuel with
    | none => none
    | some sym =>
      match solve (atLeastOne cs s v ++ atMostOne cs s v ++ flowCons m tp cs s v ++ crossCons cs s v ++ sym) with
      | some model => some (true, assignClockNumbers m cs s v model)
      | none => some (false, cs)

end

end Verif.DetClock
