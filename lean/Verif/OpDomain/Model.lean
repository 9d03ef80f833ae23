import Verif.Iter.Model

/-!
# Model of `algorithms/simulation/sidb/operational_domain.hpp`

Grid search, random sampling, flood fill and contour tracing. Parameter values are rationals (doubles in the code). The check whether the
layout is operational under given parameters is an arbitrary function `op` of the parameter point (`is_operational`, which is
deterministic for the exact engines; the code calls it with the values of `to_parameter_point`). Threads are modelled by interleaving: an event names the thread that
takes the next atomic step. Atomic are the operations on the concurrent hash map (`contains`, `add_value`) and the critical sections
of `queue_mutex`. `num_simulator_invocations` and the time are omitted.
-/
namespace Verif.OpDomain

open Verif.Iter

/-- `std::round`, `std::llround`: halves are rounded away from zero. -/
def roundAway (r : Rat) : Int := if 0 ≤ r then (r + 1 / 2).floor else -((-r + 1 / 2).floor)

/-- `constants::ERROR_MARGIN`, technology/constants.hpp:18. -/
def margin : Rat := 1 / 1000000

/-- `operational_domain_value_range`, operational_domain.hpp:318-336 (the swept parameter itself does not matter here). -/
structure Range where
  min : Rat
  max : Rat
  step : Rat

/-- The checks of `validate_operational_domain_params` on the ranges, operational_domain.hpp:423-427, 444-458. -/
def validate (rs : List Range) (minDims : Nat) : Bool :=
  decide (minDims ≤ rs.length) && rs.all (fun r => decide (¬ r.max < r.min) && decide (¬ r.step ≤ 0))

/-- `num_steps`, operational_domain.hpp:1345-1352. -/
def numSteps (r : Range) : Nat := (roundAway ((r.max - r.min) / r.step)).toNat

/-- The size of `indices.at(d)`, operational_domain.hpp:516-528. -/
def numIndices (r : Range) : Nat :=
  if r.min + ((numSteps r + 1 - 1 : Nat) : Rat) * r.step - r.max > margin then numSteps r + 1 - 1 else numSteps r + 1

/-- An element of `values.at(d)`, operational_domain.hpp:533-537. -/
def value (r : Range) (i : Nat) : Rat := r.min + (i : Rat) * r.step

/-- `values.at(d)`, operational_domain.hpp:530-537. -/
def values (r : Range) : List Rat := (List.range (numIndices r)).map (value r)

/-- `indices`, operational_domain.hpp:516-528. -/
def indices (rs : List Range) : List (List Nat) := rs.map (fun r => List.range (numIndices r))

/-- `step_point`, operational_domain.hpp:1268-1292. -/
abbrev SP := List Nat

/-- `parameter_point`, operational_domain.hpp:62-129. -/
abbrev PP := List Rat

/-- `parameter_point::quantize`, operational_domain.hpp:98-101. -/
def quantize (v : Rat) : Int := roundAway (v / margin)

/-- `parameter_point::operator==`, operational_domain.hpp:81-85. -/
def sameKey (a b : PP) : Bool := a.map quantize == b.map quantize

/-- `to_parameter_point`, operational_domain.hpp:1299-1310. The bound checks of `at` are not modelled: `C62` shows that only points of the
grid are looked up. -/
def toPP (rs : List Range) (sp : SP) : PP := List.zipWith value rs sp

/-- `to_step_point`, operational_domain.hpp:1317-1339: `std::ranges::lower_bound` per dimension. -/
def toSP (rs : List Range) (pp : PP) : SP := List.zipWith (fun r v => (values r).findIdx (fun w => decide (¬ w < v))) rs pp

/-- `operational_domain`: `domain_values`, sidb_simulation_domain.hpp:101, in the order of insertion. The status `OPERATIONAL` is `true`. -/
abbrev Dom := List (PP × Bool)

/-- `contains`, sidb_simulation_domain.hpp:88-95. -/
def contains (dom : Dom) (p : PP) : Option Bool := (dom.find? (fun e => sameKey e.1 p)).map (·.2)

/-- `add_value`, sidb_simulation_domain.hpp:43-46: `try_emplace` keeps an existing value. -/
def addValue (dom : Dom) (p : PP) (b : Bool) : Dom := if (contains dom p).isSome then dom else dom ++ [(p, b)]

/-- The loop over the dimensions in `moore_neighborhood`, operational_domain.hpp:1842-1866: the neighbour and whether it is the center,
or `none` if it is out of range. -/
def mooreDigits : List Nat → SP → Nat → Option (SP × Bool)
  | n :: ns, s :: sp, r =>
    let offset : Int := ((r % 3 : Nat) : Int) - 1
    let step : Int := (s : Int) + offset
    if step < 0 ∨ step ≥ (n : Int) then none
    else (mooreDigits ns sp (r / 3)).map (fun q => (step.toNat :: q.1, decide (offset = 0) && q.2))
  | _, _, _ => some ([], true)

/-- `moore_neighborhood`, operational_domain.hpp:1829-1875, on a grid of the sizes `ns`. -/
def moore (ns : List Nat) (sp : SP) : List SP :=
  (List.range (3 ^ ns.length)).filterMap (fun k =>
    match mooreDigits ns sp k with
    | some (q, false) => some q
    | _ => none)

/-- `von_neumann_neighborhood`, operational_domain.hpp:1789-1815. -/
def vonNeumann (ns : List Nat) (sp : SP) : List SP :=
  (List.range ns.length).flatMap (fun d =>
    let s := sp.getD d 0
    (if s > 0 then [sp.set d (s - 1)] else []) ++ (if s + 1 < ns.getD d 0 then [sp.set d (s + 1)] else []))

/-- `moore_neighborhood_2d`, operational_domain.hpp:1713-1779, in clockwise order. -/
def moore2 (w h x y : Nat) : List SP :=
  let dx := if x > 0 then x - 1 else x
  let ix := if x + 1 < w then x + 1 else x
  let dy := if y > 0 then y - 1 else y
  let iy := if y + 1 < h then y + 1 else y
  (if x ≠ ix then [[ix, y]] else []) ++ (if x ≠ ix ∧ y ≠ dy then [[ix, dy]] else []) ++
  (if y ≠ dy then [[x, dy]] else []) ++ (if x ≠ dx ∧ y ≠ dy then [[dx, dy]] else []) ++
  (if x ≠ dx then [[dx, y]] else []) ++ (if x ≠ dx ∧ y ≠ iy then [[dx, iy]] else []) ++
  (if y ≠ iy then [[x, iy]] else []) ++ (if x ≠ ix ∧ y ≠ iy then [[ix, iy]] else [])

/-- The sizes of the grid. -/
def sizes (rs : List Range) : List Nat := rs.map numIndices

section
variable (rs : List Range) (op : PP → Bool)

/-! ## `simulate_operational_status_in_parallel` -/

/-- The slices handed to the threads, operational_domain.hpp:1597-1624: `T` is the configured number of threads. -/
def slices (T : Nat) (ps : List SP) : List (List SP) :=
  let t := max (min (max T 1) ps.length) 1
  let size := (ps.length + t - 1) / t
  ((List.range t).takeWhile (fun i => decide (¬ i * size ≥ min (i * size + size) ps.length))).map (fun i =>
    (ps.drop (i * size)).take (min (i * size + size) ps.length - i * size))

/-- The shared state of the threads, and of each thread what it has to do and the point it is simulating. -/
structure Sim where
  dom : Dom
  evals : Nat
  thr : List (List SP × Option SP)

/-- The threads before their first step, operational_domain.hpp:1597-1624. -/
def Sim.start (T : Nat) (dom : Dom) (evals : Nat) (ps : List SP) : Sim := ⟨dom, evals, (slices T ps).map (fun l => (l, none))⟩

/-- One atomic step of thread `i` in `is_step_point_operational`, operational_domain.hpp:1398-1475: either the lookup, which counts the
point if it is unknown, or the insertion of its status. `none`: the thread has nothing left to do. -/
def simStep (s : Sim) (i : Nat) : Option Sim :=
  match s.thr[i]? with
  | some (todo, some p) => some { s with dom := addValue s.dom (toPP rs p) (op (toPP rs p)), thr := s.thr.set i (todo, none) }
  | some (p :: todo, none) =>
    if (contains s.dom (toPP rs p)).isSome then some { s with thr := s.thr.set i (todo, none) }
    else some { s with evals := s.evals + 1, thr := s.thr.set i (todo, some p) }
  | _ => none

/-- The schedule `es` of the threads. -/
def simRun : Sim → List Nat → Option Sim
  | s, [] => some s
  | s, i :: es => (simStep rs op s i).bind (fun s' => simRun s' es)

/-- All threads can be joined. -/
def Sim.Joined (s : Sim) : Prop := ∀ t ∈ s.thr, t = ([], none)

/-! ## `flood_fill` -/

/-- The points of execution of a worker, operational_domain.hpp:740-783: about to take the lock and test the condition of `wait`; blocked
in `wait`; having popped a point; simulating it; gathering its unknown neighbours; about to report them; returned. -/
inductive Worker where
  | idle
  | blocked
  | check (p : SP)
  | eval (p : SP)
  | nbrs (rest acc : List SP)
  | report (acc : List SP)
  | done
  deriving DecidableEq

/-- The variables shared by the workers, operational_domain.hpp:680-698, and the workers. -/
structure Flood where
  dom : Dom
  evals : Nat
  queue : List SP
  scheduled : List SP
  active : Nat
  finished : Bool
  ws : List Worker

/-- `schedule_points`, operational_domain.hpp:716-725: queue and set of scheduled points. -/
def schedule (q : List SP × List SP) (ps : List SP) : List SP × List SP :=
  ps.foldl (fun q p => if p ∈ q.2 then q else (q.1 ++ [p], q.2 ++ [p])) q

/-- `unknown_neighborhood`, operational_domain.hpp:702-712, while no other thread runs. -/
def unknown (dom : Dom) (p : SP) : List SP := (moore (sizes rs) p).filter (fun m => !(contains dom (toPP rs m)).isSome)

/-- Seeding the queue, operational_domain.hpp:727-735: `ord` is the order in which the hash map iterates over the domain. -/
def seed (dom : Dom) (ord : Dom) : List SP × List SP :=
  ord.foldl (fun q e => if e.2 then schedule q (unknown rs dom (toSP rs e.1)) else q) ([], [])

/-- What a worker does with a status, operational_domain.hpp:764-766. -/
def afterStatus (p : SP) (b : Bool) : Worker := if b then .nbrs (moore (sizes rs) p) [] else .report []

/-- `queue_cv.notify_all()`: whoever is blocked in `wait` will take the lock and test the condition again. -/
def Worker.notify : Worker → Worker
  | .blocked => .idle
  | w => w

/-- One atomic step of worker `i`, operational_domain.hpp:740-783. `none`: the worker is blocked or has returned. -/
def workerStep (s : Flood) (i : Nat) : Option Flood :=
  match s.ws[i]? with
  | some .idle =>
    match s.queue with
    | [] => if s.finished then some { s with ws := s.ws.set i .done } else some { s with ws := s.ws.set i .blocked }
    | p :: q => some { s with queue := q, active := s.active + 1, ws := s.ws.set i (.check p) }
  | some (.check p) =>
    match contains s.dom (toPP rs p) with
    | some b => some { s with ws := s.ws.set i (afterStatus rs p b) }
    | none => some { s with evals := s.evals + 1, ws := s.ws.set i (.eval p) }
  | some (.eval p) =>
    some { s with dom := addValue s.dom (toPP rs p) (op (toPP rs p)), ws := s.ws.set i (afterStatus rs p (op (toPP rs p))) }
  | some (.nbrs (m :: rest) acc) =>
    some { s with ws := s.ws.set i (.nbrs rest (if (contains s.dom (toPP rs m)).isSome then acc else acc ++ [m])) }
  | some (.nbrs [] acc) => some { s with ws := s.ws.set i (.report acc) }
  | some (.report acc) =>
    let q := schedule (s.queue, s.scheduled) acc
    let active := s.active - 1
    let finished := q.1.isEmpty && active == 0
    let ws := s.ws.set i .idle
    some { s with queue := q.1, scheduled := q.2, active := active, finished := finished,
                  ws := if finished || !q.1.isEmpty then ws.map Worker.notify else ws }
  | _ => none

/-- What happens next: worker `i` takes a step, or `wait` of worker `i` wakes up spuriously. -/
inductive Event where
  | run (i : Nat)
  | wake (i : Nat)
  deriving DecidableEq

/-- A step of a worker, operational_domain.hpp:740-783, or a spurious wake-up of `wait`. -/
def floodStep (s : Flood) : Event → Option Flood
  | .run i => workerStep rs op s i
  | .wake i => if s.ws[i]? = some .blocked then some { s with ws := s.ws.set i .idle } else none

/-- The schedule `es` of the workers. -/
def floodRun : Flood → List Event → Option Flood
  | s, [] => some s
  | s, e :: es => (floodStep rs op s e).bind (fun s' => floodRun s' es)

/-- The workers before their first step, operational_domain.hpp:680-698, 740-783. -/
def Flood.start (T : Nat) (dom : Dom) (evals : Nat) (q : List SP × List SP) : Flood :=
  ⟨dom, evals, q.1, q.2, 0, false, List.replicate (max T 1) .idle⟩

/-- All workers can be joined. -/
def Flood.Joined (s : Flood) : Prop := ∀ w ∈ s.ws, w = .done

/-! ## The algorithms. Each is a relation between the inputs and the domain together with the number of evaluated points. -/

/-- `simulate_operational_status_in_parallel`, operational_domain.hpp:1594-1631. -/
def Simulated (T : Nat) (ps : List SP) (dom : Dom) (evals : Nat) : Prop :=
  ∃ es s, simRun rs op (Sim.start T [] 0 ps) es = some s ∧ s.Joined ∧ s.dom = dom ∧ s.evals = evals

/-- `grid_search`, operational_domain.hpp:595-619; `ps` is the shuffled list of all points. -/
def GridSearch (T : Nat) (dom : Dom) (evals : Nat) : Prop :=
  ∃ ps : List SP, ps.Perm (cartesianCombinations (indices rs)) ∧ Simulated rs op T ps dom evals

/-- What `generate_random_step_points` can return, operational_domain.hpp:1551-1582: up to `n` different points of the grid (in
any order, as they are shuffled). -/
def Samples (n : Nat) (ps : List SP) : Prop := ps.Nodup ∧ ps.length ≤ n ∧ ∀ p ∈ ps, p ∈ cartesianCombinations (indices rs)

/-- `flood_fill`, operational_domain.hpp:657-804, from the samples `ps`. -/
def FloodFill (T : Nat) (ps : List SP) (dom : Dom) (evals : Nat) : Prop :=
  ∃ dom₁ evals₁ ord, Simulated rs op T ps dom₁ evals₁ ∧ List.Perm ord dom₁ ∧
    if (seed rs dom₁ ord).1 = [] then dom = dom₁ ∧ evals = evals₁
    else ∃ es s, floodRun rs op (Flood.start T dom₁ evals₁ (seed rs dom₁ ord)) es = some s ∧ s.Joined ∧ s.dom = dom ∧ s.evals = evals

end

/-- `log_stats`, operational_domain.hpp:1961-1982: operational, non-operational and total number of points. -/
def stats (rs : List Range) (dom : Dom) : Nat × Nat × Nat :=
  ((dom.filter (fun e => e.2)).length, (dom.filter (fun e => !e.2)).length, (sizes rs).foldl (· * ·) 1)

end Verif.OpDomain
