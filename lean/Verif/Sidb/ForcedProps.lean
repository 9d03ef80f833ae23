import Verif.Sidb.PotLemmas

/-!
# C38: forced charge states
-/
namespace Verif.Sidb

theorem mem_negativeDetection (E : Env) (s : Cds) (i : Nat) :
    i ∈ negativeDetection E s ↔ i < E.n ∧ -(s.intPot i + E.ext i) + E.muMinus < -E.eps := by
  simp [negativeDetection]

theorem initNegative_pot (E : Env) (b : Nat) (i : Nat) : (initNegative E b).intPot i = potential E (fun _ => .neg) i := by
  simp [initNegative, updateNeglect, fromScratch_eq]

/-- SiDBs reported as necessarily negative are negative in every physically valid charge distribution. -/
theorem C38_forced_negative (E : Env) (P : E.Physical) (s : Cds) (hs : Exact E s) (hneg : ∀ i < E.n, s.charge i = .neg) (i : Nat)
    (hi : i ∈ negativeDetection E s) (c : Nat → Charge) (hc : Valid E c) : c i = .neg := by
  obtain ⟨hin, hlt⟩ := (mem_negativeDetection E s i).1 hi
  rw [hs i hin] at hlt
  have hm := potential_mono E P (c := s.charge) (c' := c) (fun j hj => by rw [hneg j hj]; exact sign_neg_le _) i
  obtain ⟨_, h2, h3⟩ := hc.1 i hin
  have := P.mu
  cases hci : c i
  · rfl
  · have := (h2 hci).1; linarith
  · have := h3 hci; linarith

/-- If positive charges cannot occur according to the check, no physically valid charge distribution has one. -/
theorem C38_no_positive (E : Env) (P : E.Physical) (h : canPositiveOccur E = false) (c : Nat → Charge) (hc : Valid E c) :
    ∀ i < E.n, c i ≠ .pos := by
  intro i hi hp
  have h3 := (hc.1 i hi).2.2 hp
  have hm := potential_mono E P (c := fun _ => .neg) (c' := c) (fun j _ => sign_neg_le _) i
  have : ¬ (-E.fromScratch (fun _ => .neg) i > E.posLB i) := by
    intro hgt
    have : canPositiveOccur E = true := List.any_eq_true.2 ⟨i, List.mem_range.2 hi, by simpa using hgt⟩
    rw [this] at h
    exact Bool.false_ne_true h.symm
  rw [fromScratch_eq] at this
  unfold Env.posLB at this
  linarith

/-- The same for the check that decides on three-state simulation. -/
theorem C38_three_state (E : Env) (P : E.Physical) (h : threeStateRequired E = false) (c : Nat → Charge) (hc : Valid E c) :
    ∀ i < E.n, c i ≠ .pos := by
  refine C38_no_positive E P ?_ c hc
  rw [Bool.eq_false_iff] at h ⊢
  intro hp
  obtain ⟨i, hi, hlt⟩ := List.any_eq_true.1 hp
  refine h (List.any_eq_true.2 ⟨i, hi, ?_⟩)
  simp only [gt_iff_lt, decide_eq_true_eq, Bool.not_eq_true', decide_eq_false_iff_not] at hlt ⊢
  intro h'
  linarith

/-- An all-negative charge distribution is physically valid exactly if every SiDB tolerates it. -/
theorem C38_all_negative (E : Env) :
    Valid E (fun _ => .neg) ↔ ∀ i < E.n, -potential E (fun _ => .neg) i < E.ext i - E.muMinus + E.eps := by
  unfold Valid Populated NoHop
  simp [Charge.sign]

/-- Three SiDBs: the first two close to each other, the third one far away. -/
def exampleEnv : Env :=
  { n := 3
    pot := fun i j => if i = j then 0 else if i + j = 1 then 1 / 2 else 1 / 100
    defectPot := fun _ => 0
    ext := fun _ => 0
    muMinus := -(32 / 100)
    muPlus := -(91 / 100)
    eps := 1 / 1000000 }

theorem exampleEnv_physical : exampleEnv.Physical where
  symm i j := by
    simp only [exampleEnv]
    by_cases h : i = j
    · simp [h]
    · simp [h, Ne.symm h, Nat.add_comm]
  diag i := by simp [exampleEnv]
  nonneg i j := by
    simp only [exampleEnv]
    split_ifs <;> decide +kernel
  mu := by decide +kernel
  eps := by decide +kernel

example : negativeDetection exampleEnv (initNegative exampleEnv 3) = [2] ∧ canPositiveOccur exampleEnv = false ∧
    threeStateRequired exampleEnv = false := by decide +kernel

example : Exact exampleEnv (initNegative exampleEnv 3) := fun i _ => initNegative_pot exampleEnv 3 i

example : Valid exampleEnv (ofList [.neg, .neu, .neg]) := by
  refine (validityCheck_iff exampleEnv (updateNeglect exampleEnv ⟨ofList [.neg, .neu, .neg], fun _ => 0, false, 0, 3, 0⟩)
    (Exact_neglect _ _)).1 ?_
  decide +kernel

end Verif.Sidb
