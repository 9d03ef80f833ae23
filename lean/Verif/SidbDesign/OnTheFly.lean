/-!
# Model of `algorithms/physical_design/on_the_fly_sidb_circuit_design.hpp`

Placement and routing (`exact_with_blacklist`) and the design of gates are arguments. A blacklist is the list of its entries, which
are tiles with functions and ports.
-/
namespace Verif.OnTheFly

/-- What `apply_parameterized_gate_library_to_defective_surface` does: it returns cells or throws one of the exceptions that are
caught, on_the_fly_sidb_circuit_design.hpp:182-209. -/
inductive Outcome (E C : Type)
  | cells (c : C)
  | gateFailed (e : E)
  | unsupported
  | unexpected

/-- What the algorithm calls: placement and routing (on_the_fly_sidb_circuit_design.hpp:174-175) and the design of gates
(184-187); `empty` is a default-constructed layout (164). -/
structure Tools (E G C : Type) where
  exact : List E → Option G
  design : G → Outcome E C
  empty : C

/-- How a call ends: with cells and the gate-level layout of the statistics, or with `unsuccessful_pr_error`. -/
inductive Result (G C : Type)
  | returned (g : G) (c : C)
  | impossible
  deriving DecidableEq

/-- The loop, on_the_fly_sidb_circuit_design.hpp:171-218; the first argument bounds the number of iterations. -/
def Tools.loop {E G C : Type} (T : Tools E G C) : Nat → List E → Option (Result G C)
  | 0, _ => none
  | fuel + 1, black =>
    match T.exact black with
    | none => some .impossible
    | some g =>
      match T.design g with
      | .cells c => some (.returned g c)
      | .gateFailed e => T.loop fuel (black ++ [e])
      | .unsupported => some (.returned g T.empty)
      | .unexpected => some (.returned g T.empty)

end Verif.OnTheFly
