import Verif.Sidb.Model
import Mathlib.Algebra.BigOperators.Group.Finset.Basic
import Mathlib.Data.Finset.Range

/-!
# What physical validity of a charge distribution means

Stated with plain sums over the SiDBs; nothing here uses the algorithms of the model.
-/
namespace Verif.Sidb

/-- The electrostatic potential at SiDB `i`: that of the defects plus that of all SiDBs. -/
def potential (E : Env) (c : Nat → Charge) (i : Nat) : Rat :=
  E.defectPot i + ∑ j ∈ Finset.range E.n, E.pot i j * ((c j).sign : Rat)

/-- Population stability of SiDB `i`: its charge state fits the potential at its place. -/
def Populated (E : Env) (c : Nat → Charge) (i : Nat) : Prop :=
  let v := -potential E c i
  (c i = .neg → v < E.ext i - E.muMinus + E.eps) ∧
  (c i = .neu → E.ext i - E.muMinus - E.eps < v ∧ v < E.ext i - E.muPlus + E.eps) ∧
  (c i = .pos → E.ext i - E.muPlus - E.eps < v)

/-- Configuration stability: no electron gains from hopping from `i` to a less negatively charged `j`. -/
def NoHop (E : Env) (c : Nat → Charge) (i j : Nat) : Prop :=
  (c i).sign < (c j).sign →
    -E.eps ≤ E.ext i - E.ext j + (potential E c i - potential E c j - E.pot i j) / 2

/-- Physical validity (metastability) of a charge distribution. -/
def Valid (E : Env) (c : Nat → Charge) : Prop :=
  (∀ i < E.n, Populated E c i) ∧ ∀ i < E.n, ∀ j < E.n, NoHop E c i j

/-- A list of charge states, one per SiDB, as a charge distribution. -/
def ofList (l : List Charge) : Nat → Charge := fun i => l.getD i .neu

/-- The admissible charge states of a base: negative and neutral in base two, all three in base three. -/
def Admissible (b : Nat) (c : Charge) : Prop := c = .neg ∨ c = .neu ∨ (c = .pos ∧ b = 3)

/-- The potential between SiDBs is symmetric, vanishes on the diagonal, is nowhere negative; the thresholds
are ordered and the error margin is not negative. -/
structure Env.Physical (E : Env) : Prop where
  symm : ∀ i j, E.pot i j = E.pot j i
  diag : ∀ i, E.pot i i = 0
  nonneg : ∀ i j, 0 ≤ E.pot i j
  mu : E.muPlus ≤ E.muMinus
  eps : 0 ≤ E.eps

/-- The potential at SiDB `i` is not within the error margin of one of the two transition levels. -/
def OffMargin (E : Env) (c : Nat → Charge) (i : Nat) : Prop :=
  let v := -potential E c i
  ¬ (E.ext i - E.muMinus - E.eps < v ∧ v < E.ext i - E.muMinus + E.eps) ∧
  ¬ (E.ext i - E.muPlus - E.eps < v ∧ v < E.ext i - E.muPlus + E.eps)

end Verif.Sidb
