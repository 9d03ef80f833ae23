import Mathlib.Data.Rat.Defs
import Mathlib.Algebra.Order.Ring.Rat
import Mathlib.Tactic.SplitIfs
import Mathlib.Tactic.Linarith

/-!
# Model of `algorithms/optimization/simulated_annealing.hpp`

Costs and temperatures are rational numbers (the code uses `double` for temperatures and any signed type for costs;
rounding is not modelled). The neighbourhood function may be random or stateful, so it gets the number of the call; the
comparison of `std::exp` with a random number is an arbitrary decision that may depend on the number of the call, the
cost difference and the temperature.
-/
namespace Verif.Optimization

/-- The callables and parameters, simulated_annealing.hpp:71-75. -/
structure Config (S : Type) where
  initTemp : Rat
  finalTemp : Rat
  cycles : Nat
  cost : S → Rat
  schedule : Rat → Rat
  next : Nat → S → S
  /-- `std::exp(-cost_delta / temp) > random_functor(generator)` in the given call -/
  lucky : Nat → Rat → Rat → Bool

/-- `linear_temperature_schedule`, simulated_annealing.hpp:27-30. -/
def linearSchedule (t : Rat) : Rat := t - 10
/-- `geometric_temperature_schedule`, simulated_annealing.hpp:37-40. -/
def geometricSchedule (t : Rat) : Rat := t * (99 / 100)

/-- `std::clamp(v, lo, hi)`. -/
def clamp (v lo hi : Rat) : Rat := if v < lo then lo else if hi < v then hi else v

/-- The local variables, simulated_annealing.hpp:92-98, plus the number of calls of `next` and, for the specification,
the list of states the cost function was evaluated on (oldest first). -/
structure Run (S : Type) where
  curState : S
  curCost : Rat
  bestState : S
  bestCost : Rat
  calls : Nat
  evaluated : List S

variable {S : Type}

/-- simulated_annealing.hpp:92-96. -/
def start (c : Config S) (s : S) : Run S := ⟨s, c.cost s, s, c.cost s, 0, [s]⟩

/-- The body of the inner loop, simulated_annealing.hpp:103-131. -/
def cycle (c : Config S) (temp : Rat) (r : Run S) : Run S :=
  let newState := c.next r.calls r.curState
  let newCost := c.cost newState
  let r := { r with calls := r.calls + 1, evaluated := r.evaluated ++ [newState] }
  if newCost < r.bestCost then
    { r with bestState := newState, bestCost := newCost, curState := newState, curCost := newCost }
  else
    let costDelta := newCost - r.curCost
    if costDelta > 10 * temp then r
    else if costDelta ≤ 0 || c.lucky (r.calls - 1) costDelta temp then
      { r with curState := newState, curCost := newCost }
    else r

/-- The inner loop, simulated_annealing.hpp:102-131. -/
def cycles (c : Config S) (temp : Rat) : Nat → Run S → Run S
  | 0, r => r
  | n + 1, r => cycles c temp n (cycle c temp r)

/-- The outer loop, simulated_annealing.hpp:100-135; `none` if the given number of iterations does not suffice. -/
def outer (c : Config S) : Nat → Rat → Run S → Option (Run S)
  | fuel, temp, r =>
    if temp > c.finalTemp then
      match fuel with
      | 0 => none
      | f + 1 => outer c f (clamp (c.schedule temp) c.finalTemp c.initTemp) (cycles c temp c.cycles r)
    else some r

/-- `simulated_annealing`, simulated_annealing.hpp:73-138, with the final values of all its variables. -/
def annealRun (c : Config S) (fuel : Nat) (s : S) : Option (Run S) := outer c fuel c.initTemp (start c s)

/-- `simulated_annealing`, simulated_annealing.hpp:73-138. -/
def anneal (c : Config S) (fuel : Nat) (s : S) : Option (S × Rat) :=
  (annealRun c fuel s).map (fun r => (r.bestState, r.bestCost))

/-- `std::min_element` with the comparison of simulated_annealing.hpp:206-207: the first smallest element. -/
def minElement : List (S × Rat) → Option (S × Rat)
  | [] => none
  | a :: l => some (l.foldl (fun m p => if p.2 < m.2 then p else m) a)

/-- `multi_simulated_annealing`, simulated_annealing.hpp:167-208. Instance `i` starts in the `i`-th random state and
has its own draws: the model does not say how the random numbers, drawn concurrently from one generator, are
distributed over the threads. `none` if an instance does not terminate, or if there are none, in which case the code
dereferences the end iterator of an empty range. -/
def multiAnneal (cs : List (Config S × S)) (fuel : Nat) : Option (S × Rat) :=
  (cs.mapM (fun p => anneal p.1 fuel p.2)).bind minElement

end Verif.Optimization
