import Verif.Sidb.Spec
import Mathlib.Tactic.Ring
import Mathlib.Tactic.Linarith
import Mathlib.Tactic.SplitIfs

/-! Helper lemmas for charge indices. -/
namespace Verif.Sidb

/-- Number of positions below `r` other than the dependent one. -/
def free (dep : Option Nat) : Nat → Nat
  | 0 => 0
  | r + 1 => if dep = some r then free dep r else free dep r + 1

/-- Value of the digits at the positions below `r`. -/
def value (b : Nat) (dep : Option Nat) (c : Nat → Charge) : Nat → Nat
  | 0 => 0
  | r + 1 => if dep = some r then value b dep c r else value b dep c r * b + (c r).digit

theorem free_mono (dep) {r m : Nat} (h : r ≤ m) : free dep r ≤ free dep m := by
  induction h with
  | refl => exact Nat.le_refl _
  | step _ ih => simp only [free]; split <;> omega

theorem free_none (r : Nat) : free none r = r := by
  induction r with
  | zero => rfl
  | succ r ih => simp [free, ih]

theorem free_some (d r : Nat) : free (some d) r = if d < r then r - 1 else r := by
  induction r with
  | zero => simp [free]
  | succ r ih =>
    simp only [free, ih, Option.some.injEq]
    split_ifs <;> omega

theorem free_top (dep : Option Nat) (n : Nat) (h : ∀ d, dep = some d → d < n) :
    free dep n = if dep.isSome then n - 1 else n := by
  cases dep with
  | none => simp [free_none]
  | some d => simp [free_some, h d rfl]

theorem value_congr (b dep) {c c' : Nat → Charge} (r : Nat) (h : ∀ i < r, dep ≠ some i → c i = c' i) :
    value b dep c r = value b dep c' r := by
  induction r with
  | zero => rfl
  | succ r ih =>
    simp only [value]
    rw [ih (fun i hi => h i (by omega))]
    split
    · rfl
    · rename_i hne
      rw [h r (by omega) hne]

theorem value_lt (b dep) (c : Nat → Charge) (r : Nat) (h : ∀ i < r, dep ≠ some i → (c i).digit < b) :
    value b dep c r < b ^ free dep r := by
  induction r with
  | zero => simp [value, free]
  | succ r ih =>
    have ih' := ih fun i hi => h i (by omega)
    simp only [value, free]
    split
    · exact ih'
    · rename_i hne
      have := h r (by omega) hne
      rw [Nat.pow_succ]
      have h2 : (value b dep c r + 1) * b ≤ b ^ free dep r * b := Nat.mul_le_mul_right _ ih'
      have : (value b dep c r + 1) * b = value b dep c r * b + b := by ring
      omega

/-- Splitting the value at a position. -/
theorem value_split (b dep) (c : Nat → Charge) {r m : Nat} (hrm : r ≤ m) (h : ∀ i < m, dep ≠ some i → (c i).digit < b) :
    ∃ rest, value b dep c m = value b dep c r * b ^ (free dep m - free dep r) + rest ∧
      rest < b ^ (free dep m - free dep r) := by
  induction hrm with
  | refl => exact ⟨0, by simp, by simp⟩
  | @step m hm ih =>
    obtain ⟨rest, h1, h2⟩ := ih fun i hi => h i (by omega)
    have hf := free_mono dep hm
    simp only [Nat.succ_eq_add_one] at *
    simp only [value, free]
    split
    · exact ⟨rest, h1, h2⟩
    · rename_i hne
      have := h m (by omega) hne
      refine ⟨rest * b + (c m).digit, ?_, ?_⟩
      · rw [h1, show free dep m + 1 - free dep r = (free dep m - free dep r) + 1 by omega, Nat.pow_succ]
        ring
      · rw [show free dep m + 1 - free dep r = (free dep m - free dep r) + 1 by omega, Nat.pow_succ]
        have h3 := Nat.mul_le_mul_right b h2
        have : (rest + 1) * b = rest * b + b := by ring
        simp only [Nat.succ_eq_add_one] at h3
        omega

theorem value_neg (b dep) (c : Nat → Charge) (r : Nat) (h : ∀ i < r, dep ≠ some i → c i = .neg) : value b dep c r = 0 := by
  induction r with
  | zero => rfl
  | succ r ih =>
    simp only [value]
    rw [ih fun i hi => h i (by omega)]
    split
    · rfl
    · rename_i hne
      rw [h r (by omega) hne]
      simp [Charge.digit]

theorem digit_inj {x y : Charge} (h : x.digit = y.digit) : x = y := by cases x <;> cases y <;> simp_all [Charge.digit]

theorem value_inj (b dep) (hb : 0 < b) {c c' : Nat → Charge} (r : Nat) (h : ∀ i < r, dep ≠ some i → (c i).digit < b)
    (h' : ∀ i < r, dep ≠ some i → (c' i).digit < b) (e : value b dep c r = value b dep c' r) :
    ∀ i < r, dep ≠ some i → c i = c' i := by
  induction r with
  | zero => intro i hi; omega
  | succ r ih =>
    simp only [value] at e
    intro i hi hne
    by_cases hr : dep = some r
    · rw [if_pos hr, if_pos hr] at e
      have : i ≠ r := by rintro rfl; exact hne hr
      exact ih (fun i hi => h i (by omega)) (fun i hi => h' i (by omega)) e i (by omega) hne
    · rw [if_neg hr, if_neg hr] at e
      have a1 := h r (by omega) hr
      have a2 := h' r (by omega) hr
      have hm : (c r).digit = (c' r).digit := by
        have := congrArg (· % b) e
        simpa [Nat.add_mod, Nat.mod_eq_of_lt a1, Nat.mod_eq_of_lt a2] using this
      have hv : value b dep c r = value b dep c' r := by
        rw [hm] at e
        exact Nat.eq_of_mul_eq_mul_right hb (by omega)
      by_cases hir : i = r
      · subst hir; exact digit_inj hm
      · exact ih (fun i hi => h i (by omega)) (fun i hi => h' i (by omega)) hv i (by omega) hne

theorem toIndexLoop_eq (b n : Nat) (dep : Option Nat) (c : Nat → Charge) (hd : ∀ d, dep = some d → d < n) (i : Nat) (hi : i ≤ n) :
    toIndexLoop b n dep c i = (value b dep c i * b ^ (free dep n - free dep i), free dep i) := by
  induction i with
  | zero => simp [toIndexLoop, value, free]
  | succ i ih =>
    have ih' := ih (by omega)
    have hm := free_mono dep hi
    simp only [toIndexLoop, ih', value, free] at *
    split
    · rfl
    · rename_i hne
      rw [if_neg hne] at hm
      rw [← free_top dep n hd]
      rw [show free dep n - free dep i = (free dep n - (free dep i + 1)) + 1 by omega, Nat.pow_succ,
        show free dep n - 1 - free dep i = free dep n - (free dep i + 1) by omega]
      congr 1
      ring

theorem toIndex_eq (b n : Nat) (dep : Option Nat) (c : Nat → Charge) (hd : ∀ d, dep = some d → d < n) :
    toIndex b n dep c = value b dep c n := by
  simp [toIndex, toIndexLoop_eq b n dep c hd n (Nat.le_refl n)]

theorem digit_ofDigit {k : Nat} (h : k < 3) : (Charge.ofDigit k).digit = k := by
  match k, h with
  | 0, _ => rfl
  | 1, _ => rfl
  | 2, _ => rfl

/-- What the decoding loop leaves behind. -/
theorem decodeLoop_spec (b : Nat) (dep : Option Nat) (hb : 2 ≤ b) (hb3 : b ≤ 3) (fuel : Nat) :
    ∀ (q r : Nat) (c : Nat → Charge), q ≤ fuel → q < b ^ free dep r →
    ∃ c' r', decodeLoop b dep fuel q r c = some (c', r') ∧ r' ≤ r ∧ (∀ i, r ≤ i → c' i = c i) ∧
      (∀ i, i < r' → c' i = c i) ∧ (∀ i, dep = some i → c' i = c i) ∧
      (∀ i, r' ≤ i → i < r → dep ≠ some i → (c' i).digit < b) ∧
      value b dep (fun i => if i < r' then .neg else c' i) r = q := by
  induction fuel with
  | zero =>
    intro q r c hq _
    refine ⟨c, r, rfl, Nat.le_refl _, fun _ _ => rfl, fun _ _ => rfl, fun _ _ => rfl, fun i h1 h2 => by omega, ?_⟩
    rw [value_neg _ _ _ _ (fun i hi _ => by simp [hi])]
    omega
  | succ fuel ih =>
    intro q r c hq hlt
    unfold decodeLoop
    by_cases hq0 : q = 0
    · rw [if_pos hq0]
      refine ⟨c, r, rfl, Nat.le_refl _, fun _ _ => rfl, fun _ _ => rfl, fun _ _ => rfl, fun i h1 h2 => by omega, ?_⟩
      rw [value_neg _ _ _ _ (fun i hi _ => by simp [hi])]
      omega
    · rw [if_neg hq0]
      have hdiv : q / b ≤ fuel := by
        have : q / b < q := Nat.div_lt_self (by omega) (by omega)
        omega
      have hmod : q % b < b := Nat.mod_lt _ (by omega)
      -- the position to be written is `p`
      have key : ∀ p, dep ≠ some p → q < b ^ (free dep p + 1) →
          ∃ c' r', decodeLoop b dep fuel (q / b) p (setAt c p (.ofDigit (q % b))) = some (c', r') ∧ r' ≤ p ∧
            (∀ i, p + 1 ≤ i → c' i = c i) ∧ (∀ i, i < r' → c' i = c i) ∧ (∀ i, dep = some i → c' i = c i) ∧
            (∀ i, r' ≤ i → i < p + 1 → dep ≠ some i → (c' i).digit < b) ∧
            value b dep (fun i => if i < r' then .neg else c' i) (p + 1) = q := by
        intro p hp hlt'
        have : q / b < b ^ free dep p := by
          rw [Nat.div_lt_iff_lt_mul (by omega)]
          rwa [Nat.pow_succ] at hlt'
        obtain ⟨c', r', e, hr', h1, h2, h3, h4, h5⟩ := ih (q / b) p (setAt c p (.ofDigit (q % b))) hdiv this
        have hcp : c' p = .ofDigit (q % b) := by rw [h1 p (Nat.le_refl _)]; simp [setAt]
        refine ⟨c', r', e, hr', ?_, ?_, ?_, ?_, ?_⟩
        · intro i hi; rw [h1 i (by omega)]; simp [setAt, show i ≠ p by omega]
        · intro i hi; rw [h2 i hi]; simp [setAt, show i ≠ p by omega]
        · intro i hi
          rw [h3 i hi]
          have : i ≠ p := by rintro rfl; exact hp hi
          simp [setAt, this]
        · intro i hi hi' hne
          by_cases hip : i = p
          · subst hip; rw [hcp, digit_ofDigit (by omega)]; exact hmod
          · exact h4 i hi (by omega) hne
        · simp only [value]
          rw [if_neg hp, h5, if_neg (show ¬ p < r' by omega), hcp, digit_ofDigit (by omega)]
          have := Nat.div_add_mod q b
          rw [Nat.mul_comm] at this
          exact this
      by_cases hdr : 0 < r ∧ dep = some (r - 1)
      · dsimp only
        rw [if_pos hdr]
        obtain ⟨r0, rfl⟩ : ∃ r0, r = r0 + 1 := ⟨r - 1, by omega⟩
        simp only [Nat.add_sub_cancel] at hdr ⊢
        have hfr : free dep (r0 + 1) = free dep r0 := by simp [free, hdr.2]
        rw [hfr] at hlt
        have hr0 : r0 ≠ 0 := by
          rintro rfl
          simp [free] at hlt
          omega
        rw [if_neg hr0]
        obtain ⟨p, rfl⟩ : ∃ p, r0 = p + 1 := ⟨r0 - 1, by omega⟩
        simp only [Nat.add_sub_cancel]
        have hp : dep ≠ some p := by rw [hdr.2]; simp
        obtain ⟨c', r', e, hr', h1, h2, h3, h4, h5⟩ := key p hp (by simpa [free, hp] using hlt)
        refine ⟨c', r', e, by omega, fun i hi => h1 i (by omega), h2, h3, ?_, ?_⟩
        · intro i hi hi' hne
          refine h4 i hi ?_ hne
          have : i ≠ p + 1 := by rintro rfl; exact hne hdr.2
          omega
        · rw [value, if_pos hdr.2]
          exact h5
      · dsimp only
        rw [if_neg hdr]
        have hr0 : r ≠ 0 := by
          rintro rfl
          simp [free] at hlt
          omega
        rw [if_neg hr0]
        obtain ⟨p, rfl⟩ : ∃ p, r = p + 1 := ⟨r - 1, by omega⟩
        simp only [Nat.add_sub_cancel] at hdr ⊢
        have hp : dep ≠ some p := fun h => hdr ⟨by omega, h⟩
        obtain ⟨c', r', e, hr', h1, h2, h3, h4, h5⟩ := key p hp (by simpa [free, hp] using hlt)
        exact ⟨c', r', e, by omega, h1, h2, h3, h4, h5⟩

/-- Decoding from scratch. -/
theorem indexToCharge_scratch (b n : Nat) (dep : Option Nat) (hb : 2 ≤ b) (hb3 : b ≤ 3) (k : Nat) (hk : k < b ^ free dep n)
    (c : Nat → Charge) :
    ∃ c', indexToCharge b n dep true k c = some c' ∧ value b dep c' n = k ∧ ∀ i < n, dep ≠ some i → (c' i).digit < b := by
  unfold indexToCharge
  by_cases hk0 : k = 0
  · rw [if_pos hk0]
    refine ⟨_, rfl, ?_, fun _ _ _ => by simp only [Charge.digit]; omega⟩
    rw [value_neg _ _ _ _ (fun _ _ _ => rfl), hk0]
  · rw [if_neg hk0]
    obtain ⟨c', r', e, hr, h1, h2, h3, h4, h5⟩ := decodeLoop_spec b dep hb hb3 k k n c (Nat.le_refl _) hk
    rw [e]
    refine ⟨_, rfl, h5, ?_⟩
    intro i hi hne
    dsimp only
    simp only [if_true]
    by_cases hir : i < r'
    · rw [if_pos hir]; simp only [Charge.digit]; omega
    · rw [if_neg hir]; exact h4 i (by omega) hi hne

/-- Decoding the next index without resetting leading zeroes. -/
theorem indexToCharge_next (b n : Nat) (dep : Option Nat) (hb : 2 ≤ b) (hb3 : b ≤ 3) (k : Nat) (hk : k + 1 < b ^ free dep n)
    (c : Nat → Charge) (hc : ∀ i < n, dep ≠ some i → (c i).digit < b) (hv : value b dep c n = k) :
    ∃ c', indexToCharge b n dep false (k + 1) c = some c' ∧ value b dep c' n = k + 1 ∧
      (∀ i < n, dep ≠ some i → (c' i).digit < b) ∧ (∀ i, dep = some i → c' i = c i) := by
  unfold indexToCharge
  rw [if_neg (show k + 1 ≠ 0 by omega)]
  obtain ⟨c', r', e, hr, h1, h2, h3, h4, h5⟩ := decodeLoop_spec b dep hb hb3 (k + 1) (k + 1) n c (Nat.le_refl _) hk
  rw [e]
  have hdig : ∀ i < n, dep ≠ some i → (c' i).digit < b := by
    intro i hi hne
    by_cases hir : i < r'
    · rw [h2 i hir]; exact hc i hi hne
    · exact h4 i (by omega) hi hne
  refine ⟨_, rfl, ?_, ?_, ?_⟩
  · simp only [Bool.false_eq_true, if_false]
    rw [← h5]
    -- the leading digits of the previous index are zero, too
    have hfill : ∀ i < n, dep ≠ some i → ((fun i => if i < r' then Charge.neg else c' i) i).digit < b := by
      intro i hi hne
      dsimp only
      split
      · simp only [Charge.digit]; omega
      · exact hdig i hi hne
    obtain ⟨rest, e1, l1⟩ := value_split b dep _ hr hfill
    rw [value_neg _ _ _ r' (fun i hi _ => by simp [hi]), h5] at e1
    obtain ⟨rest', e2, l2⟩ := value_split b dep c hr hc
    have hz : value b dep c r' = 0 := by
      rcases Nat.eq_zero_or_pos (value b dep c r') with h | h
      · exact h
      · exfalso
        have := Nat.mul_le_mul_right (b ^ (free dep n - free dep r')) h
        omega
    have hneg := value_inj b dep (by omega) (c := c) (c' := fun _ => .neg) r' (fun i hi => hc i (by omega))
      (fun _ _ _ => by simp only [Charge.digit]; omega) (by rw [hz, value_neg _ _ _ _ (fun _ _ _ => rfl)])
    refine value_congr b dep n ?_
    intro i hi hne
    split
    · rename_i hir; rw [h2 i hir, hneg i hir hne]
    · rfl
  · simpa using hdig
  · simpa using h3

end Verif.Sidb
