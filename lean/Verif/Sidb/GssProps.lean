import Verif.Sidb.GssWitness
import Verif.Sidb.Spec
import Mathlib.Tactic.Linarith

/-!
# Pruning of multisets of charge states by bounds on their potentials
-/
namespace Verif.Sidb.Gss

open Verif.Sidb

/-- A SiDB with charge state `q` is stable at the (negated) local potential `v`, up to the error margin. -/
def Suits (E : Env) (q : Charge) (v : Rat) : Prop :=
  match q with
  | .neg => v ≤ E.eps - E.muMinus
  | .pos => -E.eps - E.muPlus ≤ v
  | .neu => -E.eps - E.muMinus ≤ v ∧ v ≤ E.eps - E.muPlus

theorem fits_of_suits {E : Env} {q : Charge} {v : Rat} {b : Bounds} (h : Suits E q v) (h1 : b.lo ≤ v) (h2 : v ≤ b.up) :
    Fits E q b := by
  cases q <;> simp only [Suits, Fits] at *
  · exact h1.trans h
  · exact ⟨h.1.trans h2, h1.trans h.2⟩
  · exact h.trans h2

/-- C90. The analysis keeps the multiset of every assignment of charges that is population stable for potentials
within the bounds, in base two or with one of the limits set to zero. Missing: the general case, which is false,
see `C90_false_positive`. -/
theorem C90_realisable_kept_partial (E : Env) (P : Params) (c : Cluster) (b : Nat → Bounds) (σ : Nat → Charge)
    (v : Nat → Rat) (hnd : c.sidbs.Nodup) (hne : c.sidbs ≠ []) (hv : ∀ i ∈ c.sidbs, (b i).lo ≤ v i ∧ v i ≤ (b i).up)
    (hσ : ∀ i ∈ c.sidbs, Admissible P.base (σ i) ∧ Suits E (σ i) (v i)) (hbase : P.base = 2 ∨ P.base = 3)
    (hsafe : P.base = 3 → (∀ i ∈ c.sidbs, σ i ≠ .pos) ∨ P.sizeLimit = 0 ∨ P.overlapLimit = 0) :
    analysis E P c ⟨(c.sidbs.filter fun i => σ i = .neg).length, (c.sidbs.filter fun i => σ i = .pos).length⟩ b = true := by
  refine analysis_true σ hnd (fun i hi => fits_of_suits (hσ i hi).2 (hv i hi).1 (hv i hi).2) hne ?_
  have key : (∀ i ∈ c.sidbs, σ i ≠ .pos) → (msOf σ c.sidbs).pos = 0 := by
    intro h
    simp only [msOf, List.length_eq_zero_iff, List.filter_eq_nil_iff, decide_eq_true_eq]
    exact h
  rcases hbase with h2 | h3
  · refine Or.inl (key fun i hi e => ?_)
    have h := (hσ i hi).1
    rw [e, h2] at h
    simp [Admissible] at h
  · rcases hsafe h3 with h | h | h
    · exact Or.inl (key h)
    · exact Or.inr (Or.inl h)
    · exact Or.inr (Or.inr h)

/-- The environment of the example below. -/
def lossEnv : Env :=
  { n := 5, pot := fun _ _ => 0, defectPot := fun _ => 0, ext := fun _ => 0, muMinus := -32, muPlus := -91, eps := 1/2 }

/-- Bounds on the potentials of five SiDBs. -/
def lossBounds : Nat → Bounds
  | 0 => ⟨50, 60⟩
  | 1 => ⟨50, 100⟩
  | 2 => ⟨50, 100⟩
  | 3 => ⟨0, 100⟩
  | _ => ⟨0, 50⟩

/-- A charge assignment for them. -/
def lossCharges : Nat → Charge
  | 0 => .neu
  | 1 => .pos
  | 2 => .pos
  | 3 => .pos
  | _ => .neg

/-- Potentials that it suits. -/
def lossPots : Nat → Rat
  | 0 => 60
  | 1 => 100
  | 2 => 100
  | 3 => 100
  | _ => 0

/-- Parameters with the default limits. -/
def defaults (base : Nat) : Params := ⟨base, 6, 6, id, id⟩

/-- The cluster of the five SiDBs. -/
def lossCluster : Cluster := .node (.node (.leaf 0) (.leaf 1)) (.node (.leaf 2) (.node (.leaf 3) (.leaf 4)))

/-- C90 is false in base three with the default limits: the multiset of a population stable assignment is discarded.
The witness partitioning takes the first positive witness but erases another one. -/
theorem C90_false_positive :
    (∀ i ∈ lossCluster.sidbs, (lossBounds i).lo ≤ lossPots i ∧ lossPots i ≤ (lossBounds i).up) ∧
    (∀ i ∈ lossCluster.sidbs, Admissible 3 (lossCharges i) ∧ Suits lossEnv (lossCharges i) (lossPots i)) ∧
    (lossCluster.sidbs.filter fun i => lossCharges i = .neg).length = 1 ∧
    (lossCluster.sidbs.filter fun i => lossCharges i = .pos).length = 3 ∧
    analysis lossEnv (defaults 3) lossCluster ⟨1, 3⟩ lossBounds = false := by
  refine ⟨?_, ?_, by decide +kernel, by decide +kernel, by decide +kernel⟩
  · intro i hi
    simp [lossCluster, Cluster.sidbs] at hi
    rcases hi with rfl | rfl | rfl | rfl | rfl <;> constructor <;> norm_num [lossBounds, lossPots]
  · intro i hi
    simp [lossCluster, Cluster.sidbs] at hi
    rcases hi with rfl | rfl | rfl | rfl | rfl <;>
      norm_num [lossCharges, lossPots, Suits, lossEnv, Admissible]

/-- The same analysis is not trivial: with a neutral SiDB less it still accepts and rejects. -/
example : analysis lossEnv (defaults 2) lossCluster ⟨2, 0⟩ lossBounds = true ∧
    analysis lossEnv (defaults 2) lossCluster ⟨3, 0⟩ lossBounds = false := by
  constructor <;> decide +kernel

/-- The hypotheses of `C90_realisable_kept_partial` hold for a configuration with two negative SiDBs. -/
example : analysis lossEnv (defaults 2) lossCluster ⟨2, 0⟩ lossBounds = true :=
  C90_realisable_kept_partial lossEnv (defaults 2) lossCluster lossBounds
    (fun i => if i < 3 then .neu else .neg) (fun i => if i < 3 then 60 else 0) (by decide) (by decide)
    (by
      intro i hi
      simp [lossCluster, Cluster.sidbs] at hi
      rcases hi with rfl | rfl | rfl | rfl | rfl <;> constructor <;> norm_num [lossBounds])
    (by
      intro i hi
      simp [lossCluster, Cluster.sidbs] at hi
      rcases hi with rfl | rfl | rfl | rfl | rfl <;> norm_num [Suits, lossEnv, Admissible])
    (Or.inl rfl) (fun h => by simp [defaults] at h)

end Verif.Sidb.Gss
