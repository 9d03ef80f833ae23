import Verif.Sidb.Spec
import Mathlib.Tactic.Ring
import Mathlib.Tactic.Linarith
import Mathlib.Tactic.SplitIfs
import Mathlib.Algebra.Order.BigOperators.Group.Finset
import Mathlib.Algebra.BigOperators.Group.Finset.Piecewise

/-! Helper lemmas on potentials and on the validity check. -/
namespace Verif.Sidb

theorem sumTo_eq (n : Nat) (f : Nat → Rat) : sumTo n f = ∑ j ∈ Finset.range n, f j := by
  induction n with
  | zero => rfl
  | succ n ih => rw [Finset.sum_range_succ, ← ih]; rfl

theorem fromScratch_eq (E : Env) (c : Nat → Charge) (i : Nat) : E.fromScratch c i = potential E c i := by
  simp [Env.fromScratch, potential, sumTo_eq]

theorem potential_congr (E : Env) {c c' : Nat → Charge} (h : ∀ i < E.n, c i = c' i) (i : Nat) :
    potential E c i = potential E c' i := by
  unfold potential
  congr 1
  refine Finset.sum_congr rfl fun j hj => ?_
  rw [h j (Finset.mem_range.1 hj)]

theorem Valid_congr (E : Env) {c c' : Nat → Charge} (h : ∀ i < E.n, c i = c' i) : Valid E c ↔ Valid E c' := by
  unfold Valid Populated NoHop
  simp only [potential_congr E h]
  constructor
  · rintro ⟨h1, h2⟩
    refine ⟨fun i hi => ?_, fun i hi j hj => ?_⟩
    · have := h1 i hi; rwa [h i hi] at this
    · have := h2 i hi j hj; rwa [h i hi, h j hj] at this
  · rintro ⟨h1, h2⟩
    refine ⟨fun i hi => ?_, fun i hi j hj => ?_⟩
    · have := h1 i hi; rwa [← h i hi] at this
    · have := h2 i hi j hj; rwa [← h i hi, ← h j hj] at this

/-- The potentials of the surface are those of its charge distribution. -/
def Exact (E : Env) (s : Cds) : Prop := ∀ i < E.n, s.intPot i = potential E s.charge i

theorem populationOk_iff (E : Env) (s : Cds) (i : Nat) (h : s.intPot i = potential E s.charge i) :
    populationOk E s i = true ↔ Populated E s.charge i := by
  unfold populationOk Populated Env.negUB Env.posLB Env.neuLB Env.neuUB
  rw [h]
  cases hc : s.charge i <;> simp

theorem configurationStable_iff (E : Env) (s : Cds) (h : Exact E s) :
    configurationStable E s = true ↔ ∀ i < E.n, ∀ j < E.n, NoHop E s.charge i j := by
  simp only [configurationStable, List.all_eq_true, List.mem_range, Bool.or_eq_true, decide_eq_true_eq,
    Bool.not_eq_true', decide_eq_false_iff_not]
  constructor
  · intro H i hi j hj hlt
    rcases H i hi with hp | H'
    · rw [hp] at hlt
      cases hj' : s.charge j <;> rw [hj'] at hlt <;> simp [Charge.sign] at hlt
    · rcases H' j hj with hle | hn
      · omega
      · simp only [hopDel, h i hi, h j hj] at hn
        linarith
  · intro H i hi
    by_cases hp : s.charge i = .pos
    · exact Or.inl hp
    · refine Or.inr fun j hj => ?_
      by_cases hle : (s.charge j).sign ≤ (s.charge i).sign
      · exact Or.inl hle
      · refine Or.inr ?_
        have := H i hi j hj (by omega)
        simp only [hopDel, h i hi, h j hj]
        intro hc
        linarith

theorem validityCheck_iff (E : Env) (s : Cds) (h : Exact E s) : (validityCheck E s).valid = true ↔ Valid E s.charge := by
  simp only [validityCheck, Bool.and_eq_true, List.all_eq_true, List.mem_range, configurationStable_iff E s h, Valid]
  refine and_congr_left fun _ => ⟨fun H i hi => (populationOk_iff E s i (h i hi)).1 (H i hi),
    fun H i hi => (populationOk_iff E s i (h i hi)).2 (H i hi)⟩

@[simp] theorem validityCheck_charge (E : Env) (s : Cds) : (validityCheck E s).charge = s.charge := rfl
@[simp] theorem validityCheck_intPot (E : Env) (s : Cds) : (validityCheck E s).intPot = s.intPot := rfl
@[simp] theorem validityCheck_index (E : Env) (s : Cds) : (validityCheck E s).index = s.index := rfl
@[simp] theorem validityCheck_base (E : Env) (s : Cds) : (validityCheck E s).base = s.base := rfl
@[simp] theorem validityCheck_maxIndex (E : Env) (s : Cds) : (validityCheck E s).maxIndex = s.maxIndex := rfl

theorem Exact_neglect (E : Env) (s : Cds) : Exact E (updateNeglect E s) := by
  intro i _
  simp [updateNeglect, fromScratch_eq]

/-- The effect of changing the charge of a single SiDB. -/
theorem potential_setAt (E : Env) (c : Nat → Charge) (k : Nat) (x : Charge) (hk : k < E.n) (i : Nat) :
    potential E (setAt c k x) i = potential E c i + E.pot i k * ((x.sign - (c k).sign : Int) : Rat) := by
  have : ∀ j ∈ Finset.range E.n, E.pot i j * ((setAt c k x j).sign : Rat) =
      E.pot i j * ((c j).sign : Rat) + if j = k then E.pot i k * ((x.sign - (c k).sign : Int) : Rat) else 0 := by
    intro j _
    simp only [setAt]
    split
    · rename_i h; subst h; push_cast; ring
    · ring
  unfold potential
  rw [Finset.sum_congr rfl this, Finset.sum_add_distrib, Finset.sum_ite_eq', if_pos (Finset.mem_range.2 hk)]
  ring

theorem Exact_changed (E : Env) (P : E.Physical) (s : Cds) (k : Nat) (x : Charge) (hk : k < E.n) (h : Exact E s) :
    Exact E (updateChanged E { s with charge := setAt s.charge k x } k (s.charge k).sign) := by
  intro i hi
  simp only [updateChanged]
  rw [potential_setAt E s.charge k x hk i, h i hi, P.symm k i]
  simp [setAt]

theorem Exact_dependent (E : Env) (P : E.Physical) (three : Bool) (d : Nat) (hd : d < E.n) (s : Cds) (h : Exact E s) :
    Exact E (updateDependent E three d s) := by
  have key : ∀ x : Charge, Exact E { s with
        charge := setAt s.charge d x
        intPot := fun i => if i ≠ d then s.intPot i + E.pot i d * ((-(s.charge d).sign + x.sign : Int) : Rat) else s.intPot i } := by
    intro x i hi
    simp only
    rw [potential_setAt E s.charge d x hd i]
    split
    · rw [h i hi]; push_cast; ring
    · rename_i hne
      have : i = d := by simpa using hne
      subst this
      rw [P.diag, h i hi]; ring
  unfold updateDependent
  dsimp only
  split_ifs <;> first | exact h | exact key _

theorem updateDependent_charge (E : Env) (three : Bool) (d i : Nat) (s : Cds) (h : i ≠ d) :
    (updateDependent E three d s).charge i = s.charge i := by
  unfold updateDependent
  dsimp only
  split_ifs <;> simp [setAt, h]

@[simp] theorem updateDependent_maxIndex (E : Env) (three : Bool) (d : Nat) (s : Cds) :
    (updateDependent E three d s).maxIndex = s.maxIndex := by
  unfold updateDependent
  dsimp only
  split_ifs <;> rfl

@[simp] theorem updateDependent_base (E : Env) (three : Bool) (d : Nat) (s : Cds) :
    (updateDependent E three d s).base = s.base := by
  unfold updateDependent
  dsimp only
  split_ifs <;> rfl

/-- The potential at an SiDB does not depend on its own charge. -/
theorem potential_self (E : Env) (P : E.Physical) (c : Nat → Charge) (d : Nat) (x : Charge) :
    potential E (setAt c d x) d = potential E c d := by
  by_cases hd : d < E.n
  · rw [potential_setAt E c d x hd, P.diag]; ring
  · exact potential_congr E (fun i hi => by simp [setAt, show i ≠ d by omega]) d

theorem updateDependent_value (E : Env) (three : Bool) (d : Nat) (s : Cds) :
    (updateDependent E three d s).charge d =
      if -s.intPot d < E.negUB d then .neg
      else if -s.intPot d > E.posLB d then (if s.base = 3 || three then .pos else s.charge d)
      else .neu := by
  unfold updateDependent
  dsimp only
  split_ifs <;> simp_all [setAt]

/-- More positive charge means a higher potential. -/
theorem potential_mono (E : Env) (P : E.Physical) {c c' : Nat → Charge} (h : ∀ i < E.n, (c i).sign ≤ (c' i).sign) (i : Nat) :
    potential E c i ≤ potential E c' i := by
  unfold potential
  refine add_le_add (le_refl _) (Finset.sum_le_sum fun j hj => ?_)
  refine mul_le_mul_of_nonneg_left ?_ (P.nonneg i j)
  exact_mod_cast h j (Finset.mem_range.1 hj)

theorem sign_neg_le (c : Charge) : Charge.neg.sign ≤ c.sign := by cases c <;> simp [Charge.sign]

end Verif.Sidb
