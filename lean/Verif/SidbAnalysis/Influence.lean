import Verif.SidbAnalysis.Displacement
import Mathlib.Order.WithBot

/-!
# Model of the defect influence domain and the defect clearance

`algorithms/simulation/sidb/defect_influence.hpp` and `defect_clearance.hpp`: grid search, random sampling and the clearance.
Simulations are arguments. Contour tracing (`quicktrace`) and the number of simulator invocations are not modelled.
-/
namespace Verif.Influence

open Verif.Displacement (Pos spanned slices)

/-- `influence_definition`, defect_influence.hpp:46-56. -/
inductive Def where
  | operationality
  | groundState
  deriving DecidableEq

/-- A layout, the parameters of defect_influence.hpp:41-83, and what simulations of the layout yield. Layouts are simulated with
the defect at a position or (`none`) without it, ground states for an input pattern or (`none`) for the layout as given. -/
structure Problem where
  /-- The SiDBs. -/
  cells : List Pos
  /-- Corners of `bounding_box_2d`, see C85. -/
  nw : Pos
  se : Pos
  /-- `additional_scanning_area`. -/
  area : Pos
  definition : Def
  /-- Number of input patterns of the specification, if there is one. -/
  spec : Option Nat
  /-- `is_operational`. -/
  operational : Option Pos → Bool
  /-- Charge indices of the ground states of `quickexact`. -/
  groundStates : Option Nat → Option Pos → List Nat
  /-- `can_positive_charges_occur` with the defect at a position. -/
  positive : Option Nat → Pos → Bool

/-- `does_defect_influence_groundstate`, defect_influence.hpp:636-694, for a position without an SiDB. -/
def Problem.groundStateChanged (P : Problem) (k : Option Nat) (p : Pos) : Bool :=
  if P.cells = [] then true
  else if P.positive k p then true
  else if (P.groundStates k none).length ≠ (P.groundStates k (some p)).length then true
  else (P.groundStates k (some p)).any fun g => !(P.groundStates k none).any fun g' => g' == g

/-- The status computed by `is_defect_influential`, defect_influence.hpp:573-626; true: influential. -/
def Problem.status (P : Problem) (p : Pos) : Bool :=
  if p ∈ P.cells then false
  else match P.spec, P.definition with
    | some _, .operationality => !P.operational (some p)
    | some n, .groundState => (List.range n).any fun k => P.groundStateChanged (some k) p
    | none, .groundState => P.groundStateChanged none p
    | none, .operationality => false

/-- All positions of the scanned area, defect_influence.hpp:168, 486-508. -/
def Problem.positions (P : Problem) : List Pos :=
  spanned (P.nw.1 - P.area.1, P.nw.2 - P.area.2) (P.se.1 + P.area.1, P.se.2 + P.area.2)

/-- The test of grid search, defect_influence.hpp:198-199. -/
def onGrid (stepSize : Nat) (p : Pos) : Bool := p.1.natAbs % stepSize == 0 && p.2.natAbs % stepSize == 0

/-- `add_value` of the domain, sidb_simulation_domain.hpp:43-46. -/
def addValue (dom : List (Pos × Bool)) (r : Pos × Bool) : List (Pos × Bool) :=
  if dom.any (fun d => d.1 == r.1) then dom else dom ++ [r]

/-- The domain and `num_evaluated_defect_positions`, shared by all threads, and of each thread the positions left and the status
it has computed but not yet stored. -/
structure State where
  dom : List (Pos × Bool)
  evaluated : Nat
  thr : List (List Pos × Option (Pos × Bool))
  deriving DecidableEq

/-- The threads before their first step, defect_influence.hpp:171-205, 242-273, see `slices`. -/
def State.start (n : Nat) (ps : List Pos) : State := ⟨[], 0, (slices n ps).map (fun l => (l, none))⟩

/-- One step of thread `i`: it skips a position not selected (defect_influence.hpp:198-199), looks a position up in the domain
and simulates it if it is new (548-626), or stores a status (560, 568). `none`: the thread has returned. -/
def step (P : Problem) (sel : Pos → Bool) (s : State) (i : Nat) : Option State :=
  match s.thr[i]? with
  | some (todo, some r) => some { s with dom := addValue s.dom r, thr := s.thr.set i (todo, none) }
  | some (p :: todo, none) =>
    if sel p then
      if s.dom.any (fun d => d.1 == p) then some { s with evaluated := s.evaluated + 1, thr := s.thr.set i (todo, none) }
      else some { s with evaluated := s.evaluated + 1, thr := s.thr.set i (todo, some (p, P.status p)) }
    else some { s with thr := s.thr.set i (todo, none) }
  | _ => none

/-- The schedule `es` of the threads, defect_influence.hpp:178-213. -/
def run (P : Problem) (sel : Pos → Bool) : State → List Nat → Option State
  | s, [] => some s
  | s, i :: es => (step P sel s i).bind (fun s' => run P sel s' es)

/-- All threads can be joined, defect_influence.hpp:207-213. -/
def State.Joined (s : State) : Prop := ∀ t ∈ s.thr, t = ([], none)

/-- Possible outcomes of `grid_search`, defect_influence.hpp:163-218, over all schedules. -/
def GridOutcome (P : Problem) (n stepSize : Nat) (s : State) : Prop :=
  ∃ es, run P (onGrid stepSize) (State.start n P.positions) es = some s ∧ s.Joined

/-- Possible outcomes of `random_sampling`, defect_influence.hpp:229-287, over all shuffles and schedules. -/
def RandomOutcome (P : Problem) (n samples : Nat) (s : State) : Prop :=
  ∃ (sh : List Pos) (es : List Nat), sh.Perm P.positions ∧
    run P (fun _ => true) (State.start n (sh.take (min sh.length samples))) es = some s ∧ s.Joined

/-- The statistics of `log_stats`, defect_influence.hpp:747-764: influencing and other positions. -/
def logStats (dom : List (Pos × Bool)) : Nat × Nat :=
  dom.foldl (fun n d => if d.2 then (n.1 + 1, n.2) else (n.1, n.2 + 1)) (0, 0)

section
variable {D : Type} [LinearOrder D] [Zero D]

/-- The nearest SiDB, defect_clearance.hpp:60-71: its distance and the position of the defect, or infinity and the default
position. -/
def nearest (dist : Pos → Pos → D) (cells : List Pos) (p : Pos) : WithTop D × Pos :=
  cells.foldl (fun m c => if (dist c p : WithTop D) < m.1 then ((dist c p : WithTop D), p) else m) (⊤, (0, 0))

/-- `calculate_defect_clearance`, defect_clearance.hpp:45-81: distance and position, where `dom` is the domain in the order of
the iteration. -/
def clearance (dist : Pos → Pos → D) (cells : List Pos) (dom : List (Pos × Bool)) : WithTop D × Pos :=
  dom.foldl (fun m d => if !d.2 then m
    else if (nearest dist cells d.1).1 > m.1 then nearest dist cells d.1 else m) (((0 : D) : WithTop D), (0, 0))

end

end Verif.Influence
