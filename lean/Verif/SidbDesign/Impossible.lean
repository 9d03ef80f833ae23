import Verif.Sidb.Model

/-!
# Model of `is_sidb_gate_design_impossible`

`technology/is_sidb_gate_design_impossible.hpp`. SiDBs are addressed as in the model of charge distributions. The detection of
the output pairs is not modelled; they are an argument. Output SiDBs that are not part of a layout, for which an assertion
fails, are not modelled.
-/
namespace Verif.Impossible

open Verif.Sidb

/-- The SiDB is neutral even if all SiDBs are neutral, is_sidb_gate_design_impossible.hpp:72-74, 83-85, 95-97. -/
def forcedNeutral (E : Env) (i : Nat) : Bool := decide (-E.fromScratch (fun _ => .neu) i > E.neuLB i)

/-- `is_sidb_gate_design_impossible`, is_sidb_gate_design_impossible.hpp:52-106: `env k` is the skeleton with the inputs of
pattern `k`, and `out k` are the output pairs, lower and upper SiDB, as numbered there. -/
def impossible (patterns : Nat) (env : Nat → Env) (out : Nat → List (Nat × Nat)) : Bool :=
  (List.range patterns).any fun k => (out k).any fun p => forcedNeutral (env k) p.1 || forcedNeutral (env k) p.2

end Verif.Impossible
