import Verif.Io.Csv

/-!
# Model of `io/write_operational_domain.hpp` and `io/write_defect_influence_domain.hpp`

Numbers are the characters the stream writes for them. The samples are given in the order in which the domain visits them.
-/
namespace Verif.DomainCsv

open Verif.Csv

/-- `sweep_parameter`, operational_domain.hpp. -/
inductive Sweep
  | epsilonR
  | lambdaTf
  | muMinus
  deriving DecidableEq

/-- `sweep_parameter_to_string`, write_operational_domain.hpp:66-85. -/
def Sweep.name : Sweep → List Char
  | .epsilonR => "epsilon_r".toList
  | .lambdaTf => "lambda_tf".toList
  | .muMinus => "mu_minus".toList

/-- `write_operational_domain_params`, write_operational_domain.hpp:25-55. -/
structure Params where
  opTag : List Char
  nonOpTag : List Char
  operationalOnly : Bool

/-- An element of the domain: its parameter point, its status and, for critical temperature domains, its temperature. -/
structure Sample where
  values : List (List Char)
  operational : Bool
  temperature : List Char

/-- The last value of a line of a critical temperature domain. -/
def extra (withTemp : Bool) (t : List Char) : List (List Char) := if withTemp then [t] else []

/-- The first line, write_operational_domain.hpp:138-155, 193-206; `none` for another number of dimensions. -/
def header (withTemp : Bool) : List Sweep → Option (List (List Char))
  | [a] => some ([a.name, "operational status".toList] ++ extra withTemp "critical temperature".toList)
  | [a, b] => some ([a.name, b.name, "operational status".toList] ++ extra withTemp "critical temperature".toList)
  | [a, b, c] =>
    some ([a.name, b.name, c.name, "operational status".toList] ++ extra withTemp "critical temperature".toList)
  | _ => none

/-- The line of a sample, write_operational_domain.hpp:167-184, 218-235; `none` is the exception of `at`. -/
def row (withTemp : Bool) (dims : Nat) (p : Params) (s : Sample) : Option (List (List Char)) :=
  let tag := if s.operational then p.opTag else p.nonOpTag
  match dims, s.values with
  | 1, x :: _ => some ([x, tag] ++ extra withTemp s.temperature)
  | 2, x :: y :: _ => some ([x, y, tag] ++ extra withTemp s.temperature)
  | 3, x :: y :: z :: _ => some ([x, y, z, tag] ++ extra withTemp s.temperature)
  | _, _ => none

/-- The lines of the samples, write_operational_domain.hpp:157-185, 208-236. -/
def rows (withTemp : Bool) (dims : Nat) (p : Params) : List Sample → Option (List (List (List Char)))
  | [] => some []
  | s :: rest =>
    if p.operationalOnly && !s.operational then rows withTemp dims p rest
    else match row withTemp dims p s, rows withTemp dims p rest with
      | some r, some rs => some (r :: rs)
      | _, _ => none

/-- `write_operational_domain`, write_operational_domain.hpp:116-238; `none` is an exception. -/
def writeOperational (withTemp : Bool) (dims : List Sweep) (p : Params) (samples : List Sample) : Option (List Char) :=
  if dims.length = 0 ∨ dims.length > 3 then none
  else match header withTemp dims, rows withTemp dims.length p samples with
    | some h, some rs => some (write (h :: rs))
    | _, _ => none

/-- A position of a defect with its influence. -/
structure Position where
  x : List Char
  y : List Char
  influential : Bool

/-- `write_defect_influence_domain`, write_defect_influence_domain.hpp:47-62. -/
def writeInfluence (tag nonTag : List Char) (ps : List Position) : List Char :=
  write (["x".toList, "y".toList, "operational status".toList] ::
    ps.map fun d => [d.x, d.y, if d.influential then tag else nonTag])

end Verif.DomainCsv
