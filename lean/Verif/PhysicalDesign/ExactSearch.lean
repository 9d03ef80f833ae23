import Verif.PhysicalDesign.Exact
import Verif.Iter.Model

/-!
# Model of the search of `exact` over the aspect ratios

exact.hpp:181-200, 294-341, 2889-3154. The solver is a function that gives an assignment for an aspect ratio or none. Timeouts are not
modelled. `run_asynchronously` is a transition system; a schedule is an arbitrary sequence of threads. The mutexes make the
modelled steps atomic.
-/
namespace Verif.PhysicalDesign.Exact

open Verif.Layouts Verif.Clocking Verif.GateLevel Verif.Networks Verif.Iter

/-- exact.hpp:78-152: `upper_bound_area`, `upper_bound_x`, `upper_bound_y`, `fixed_size`. -/
structure Bounds where
  area : Nat
  x : Nat
  y : Nat
  fixedSize : Bool

/-- The number of tiles. -/
def area (ar : Nat × Nat) : Nat := (ar.1 + 1) * (ar.2 + 1)

/-- `static_cast<uint64_t>(upper_bound_x * upper_bound_y)`, exact.hpp:197, 3098: the factors are promoted to `int`; overflows, which are
undefined, wrap around, and negative numbers are sign-extended. -/
def product (x y : Nat) : Nat := if x * y < 2 ^ 31 then x * y else x * y + (2 ^ 64 - 2 ^ 32)

/-- `upper_bound`, exact.hpp:3097-3098. -/
def Bounds.upper (b : Bounds) : Nat := min b.area (product b.x b.y)

/-- The depth of the network, `depth_view::depth`. -/
def depth (N : Ntk) : Nat := (N.pos.map N.level).foldl max 0

/-- `skippable`, exact.hpp:294-341, for regular clocking and without border pins. -/
def skippable (b : Bounds) (cs : Scheme) (N : Ntk) (ar : Nat × Nat) : Bool :=
  if b.area < (ar.1 + 1) * (ar.2 + 1) ∨ b.x ≤ ar.1 ∨ b.y ≤ ar.2 then true
  else if cs.name = "COLUMNAR" then decide (ar.1 < depth N)
  else if cs.name = "ROW" then decide (ar.2 < depth N)
  else false

/-- The first area, exact.hpp:193-199; `lower_bound` has 16 bits. -/
def firstArea (b : Bounds) (nodes : List Nat) : Nat := if b.fixedSize then b.upper else nodes.length % 2 ^ 16

/-- The loop of `run_synchronously`, exact.hpp:3100-3151. The first argument bounds the number of iterations. -/
def search {α : Type} (skip : Nat × Nat → Bool) (solve : Nat × Nat → Option α) (ub : Nat) : Nat → ARIt → Option (Option ((Nat × Nat) × α))
  | 0, _ => none
  | f + 1, it =>
    if it.num ≤ ub then
      match it.deref with
      | none => none
      | some ar =>
        if skip ar then search skip solve ub f it.inc
        else
          match solve ar with
          | some A => some (some (ar, A))
          | none => search skip solve ub f it.inc
    else some none

/-- `run_synchronously`, exact.hpp:3091-3154. -/
def runSync {α : Type} (b : Bounds) (cs : Scheme) (N : Ntk) (nodes : List Nat) (solve : Nat × Nat → Option α) (fuel : Nat) :
    Option (Option ((Nat × Nat) × α)) :=
  search (skippable b cs N) solve b.upper fuel (ARIt.mk' (firstArea b nodes))

/-! ## Threads -/

/-- The state of a thread: about to fetch an aspect ratio; having fetched one; solving; interrupting the other threads from the given
index on; finished. -/
inductive Thread (α : Type) where
  | ready
  | fetched (ar : Nat × Nat)
  | solving (ar : Nat × Nat)
  | notifying (ar : Nat × Nat) (A : α) (j : Nat)
  | done (r : Option ((Nat × Nat) × α))

/-- The shared state: `ari`, `num_aspect_ratios`, `result_aspect_ratio`, `worker_aspect_ratio` and the interrupts requested of the threads. -/
structure Shared (α : Type) where
  ari : ARIt
  count : Nat
  result : Option (Nat × Nat)
  worker : Nat → Nat × Nat
  interrupted : Nat → Bool
  thread : Nat → Thread α

/-- The state of one thread changes, exact.hpp:2902-2922. -/
def Shared.setThread {α : Type} (s : Shared α) (t : Nat) (x : Thread α) : Shared α :=
  { s with thread := fun i => if i = t then x else s.thread i }

/-- Fetching the next aspect ratio, exact.hpp:2902-2922. -/
def fetch {α : Type} (b : Bounds) (skip : Nat × Nat → Bool) (s : Shared α) (t : Nat) : Shared α :=
  let it := s.ari.inc
  let s := { s with ari := it, count := s.count + 1 }
  match it.deref with
  | none => s.setThread t (.done none)
  | some ar =>
    if b.area < (ar.1 + 1) * (ar.2 + 1) ∨ (b.x ≤ ar.1 ∧ b.y ≤ ar.2) then s.setThread t (.done none)
    else if skip ar then s.setThread t .ready
    else s.setThread t (.fetched ar)

/-- Comparing with the result of other threads, exact.hpp:2924-2942. -/
def compare {α : Type} (s : Shared α) (t : Nat) (ar : Nat × Nat) : Shared α :=
  if s.result.any (fun r => decide (area r ≤ area ar)) then s.setThread t (.done none)
  else { s with worker := fun i => if i = t then ar else s.worker i }.setThread t (.solving ar)

/-- The answer of the solver, exact.hpp:2948-2968, 2988. -/
def answer {α : Type} (solve : Nat × Nat → Option α) (s : Shared α) (t : Nat) (ar : Nat × Nat) : Shared α :=
  match solve ar with
  | none => s.setThread t .ready
  | some A =>
    if s.result.any (fun r => decide (area r ≤ area ar)) then s.setThread t (.done none)
    else { s with result := some ar }.setThread t (.notifying ar A 0)

/-- Interrupting the thread `j`, exact.hpp:2971-2979. -/
def notify {α : Type} (k : Nat) (s : Shared α) (t : Nat) (ar : Nat × Nat) (A : α) (j : Nat) : Shared α :=
  if j < k then
    { s with interrupted := fun i => if i = j ∧ area ar ≤ area (s.worker j) then true else s.interrupted i }.setThread t (.notifying ar A (j + 1))
  else s.setThread t (.done (some (ar, A)))

/-- A step of the thread `t`. A solver that has been interrupted may throw, exact.hpp:2990-2993, or answer. -/
inductive Step {α : Type} (b : Bounds) (skip : Nat × Nat → Bool) (solve : Nat × Nat → Option α) (k : Nat) : Shared α → Shared α → Prop where
  | fetch (s t) : t < k → s.thread t = .ready → Step b skip solve k s (fetch b skip s t)
  | compare (s t ar) : t < k → s.thread t = .fetched ar → Step b skip solve k s (compare s t ar)
  | answer (s t ar) : t < k → s.thread t = .solving ar → Step b skip solve k s (answer solve s t ar)
  | throw (s t ar) : t < k → s.thread t = .solving ar → s.interrupted t = true → Step b skip solve k s (s.setThread t (.done none))
  | notify (s t ar A j) : t < k → s.thread t = .notifying ar A j → Step b skip solve k s (notify k s t ar A j)

/-- The start of `run_asynchronously`. -/
def start (α : Type) (b : Bounds) (nodes : List Nat) : Shared α :=
  ⟨ARIt.mk' (firstArea b nodes), 0, none, fun _ => (0, 0), fun _ => false, fun _ => .ready⟩

/-- The end of `run_asynchronously`, exact.hpp:3054-3084: the last layout with the aspect ratio of the result; an empty layout if there
is none. -/
def collect {α : Type} (k : Nat) (s : Shared α) : Option (Option ((Nat × Nat) × α)) :=
  s.result.map fun r => (List.range k).foldl (fun l t =>
    match s.thread t with
    | .done (some x) => if x.1 = r then some x else l
    | _ => l) none

end Verif.PhysicalDesign.Exact
