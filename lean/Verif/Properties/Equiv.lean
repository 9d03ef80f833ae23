import Verif.Properties.DrvProps

/-!
# Equivalence checking

Model of `include/fiction/algorithms/verification/equivalence_checking.hpp`.

`mockturtle::miter` and `mockturtle::equivalence_checking` are external. The miter of two designs is given by its
function, and the SAT solver is a parameter.
-/
namespace Verif.Equiv

open Verif.Layouts Verif.Clocking Verif.GateLevel

/-- The logic function of a network or layout. -/
structure Io where
  pis : Nat
  pos : Nat
  fn : List Bool → List Bool

/-- The template parameters `Spec` and `Impl`, equivalence_checking.hpp:227-231: a logic network, or a gate-level layout. -/
inductive Design where
  | network (io : Io)
  | layout (io : Io) (m : Dim) (tp : Topo) (cs : Scheme) (s : State)

/-- The inputs and outputs of `Spec` or `Impl`, equivalence_checking.hpp:227-231. -/
def Design.io : Design → Io
  | .network io => io
  | .layout io _ _ _ _ => io

/-- `has_drvs`, equivalence_checking.hpp:182-194, and `if constexpr (is_gate_level_layout_v<Spec>)`, lines 95, 102. -/
def Design.hasDrvs : Design → Bool
  | .network _ => false
  | .layout _ m tp cs s => Drv.drvs m tp cs s {} != 0

/-- The throughput of a design, equivalence_checking.hpp:124-137; 1 for networks, line 54. `none`:
`critical_path_length_and_throughput` does not terminate. -/
def Design.throughput (sort : List CritPath.Info → List CritPath.Info) : Design → Option Nat
  | .network _ => some 1
  | .layout _ m tp cs s =>
    (CritPath.criticalPath (CritPath.ofState m tp cs s) sort ((m.X + 1) * ((m.Y + 1) * (m.Z + 1)) + 1)).map (·.throughput)

/-- `mockturtle::miter`, called in equivalence_checking.hpp:110 (external, by specification): nothing if the numbers of
inputs or outputs differ, otherwise a network with the same inputs whose output is true iff some outputs differ. -/
def miter (a b : Io) : Option (Nat × (List Bool → Bool)) :=
  if a.pis ≠ b.pis ∨ a.pos ≠ b.pos then none
  else some (a.pis, fun xs => ((a.fn xs).zip (b.fn xs)).any (fun p => p.1 != p.2))

/-- The SAT call of `mockturtle::equivalence_checking`, called in equivalence_checking.hpp:116 (external): `none` if the
resource limit is exceeded, `some none` if the miter's output is never true, otherwise an input for which it is. -/
abbrev Solver := Nat → (List Bool → Bool) → Option (Option (List Bool))

/-- `eq_type`, equivalence_checking.hpp:29-43. -/
inductive EqType | no | weak | strong
  deriving DecidableEq

/-- `equivalence_checking_stats`, equivalence_checking.hpp:45-67; without runtime and design rule statistics. -/
structure Stats where
  eq : EqType := .no
  tpSpec : Nat := 1
  tpImpl : Nat := 1
  tpDiff : Nat := 0
  counterExample : List Bool := []
  deriving DecidableEq

/-- `equivalence_checking_impl::run` and `equivalence_checking`, equivalence_checking.hpp:91-168, 227-244: the returned
type and the statistics. Throughputs are unbounded numbers (the code casts them to `int64_t`). -/
def check (sort : List CritPath.Info → List CritPath.Info) (solve : Solver) (spec impl : Design) : Option (EqType × Stats) :=
  if spec.hasDrvs then some (.no, {})
  else if impl.hasDrvs then some (.no, {})
  else
    match miter spec.io impl.io with
    | none => some (.no, {})
    | some (n, f) =>
      match solve n f with
      | none => some (.no, {})
      | some none =>
        match spec.throughput sort, impl.throughput sort with
        | some ts, some ti =>
          let diff := CritPath.absDiff ts ti
          let eq := if diff ≠ 0 then EqType.weak else EqType.strong
          some (eq, { eq := eq, tpSpec := ts, tpImpl := ti, tpDiff := diff })
        | _, _ => none
      | some (some cex) => some (.no, { counterExample := cex })

end Verif.Equiv
