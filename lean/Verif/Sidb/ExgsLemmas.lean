import Verif.Sidb.IndexProps
import Verif.Sidb.PotLemmas
import Mathlib.Data.List.Nodup

/-! Helper lemmas for the exhaustive simulation. -/
namespace Verif.Sidb

/-- The state of the surface in the loop: index `k`, its distribution, exact potentials and validity. -/
structure AtIndex (E : Env) (b k : Nat) (s : Cds) : Prop where
  index : s.index = k
  base : s.base = b
  max : s.maxIndex = b ^ E.n - 1
  digits : ∀ i < E.n, (s.charge i).digit < b
  val : value b none s.charge E.n = k
  valid : s.valid = true ↔ Valid E s.charge

theorem AtIndex_init (E : Env) (b : Nat) (hb : 2 ≤ b) : AtIndex E b 0 (initNegative E b) where
  index := rfl
  base := rfl
  max := rfl
  digits _ _ := by simp only [initNegative, validityCheck_charge, updateNeglect, Charge.digit]; omega
  val := value_neg _ _ _ _ fun _ _ _ => rfl
  valid := validityCheck_iff E _ (Exact_neglect E _)

theorem AtIndex_step (E : Env) (b k : Nat) (hb : 2 ≤ b) (hb3 : b ≤ 3) (s : Cds) (h : AtIndex E b k s) (hk : k < b ^ E.n - 1) :
    ∃ s', increaseIndex E s = some s' ∧ AtIndex E b (k + 1) s' := by
  unfold increaseIndex
  rw [if_neg (by rw [h.index, h.max]; omega), h.base, h.index]
  obtain ⟨c', h1, h2, h3, _⟩ := indexToCharge_next b E.n none hb hb3 k (by rw [free_none]; omega) s.charge
    (fun i hi _ => h.digits i hi) h.val
  rw [h1]
  refine ⟨_, rfl, ⟨?_, ?_, ?_, ?_, ?_, ?_⟩⟩
  · rfl
  · rfl
  · exact h.max
  · exact fun i hi => h3 i hi (by simp)
  · exact h2
  · exact validityCheck_iff E _ (Exact_neglect E _)

/-- The distribution of an index as a list. -/
def chargesOf (b n k : Nat) : List Charge :=
  (List.range n).map fun i => .ofDigit (k / b ^ (n - 1 - i) % b)

theorem value_chargesOf (b n k r : Nat) (hb : 2 ≤ b) (hb3 : b ≤ 3) (hr : r ≤ n) :
    value b none (fun i => Charge.ofDigit (k / b ^ (n - 1 - i) % b)) r = k / b ^ (n - r) % b ^ r := by
  induction r with
  | zero => simp [value, Nat.mod_one]
  | succ r ih =>
    simp only [value, reduceCtorEq, if_false]
    rw [ih (by omega), digit_ofDigit (lt_of_lt_of_le (Nat.mod_lt _ (by omega)) hb3)]
    rw [show n - r = (n - 1 - r) + 1 by omega, show n - (r + 1) = n - 1 - r by omega, Nat.pow_succ, ← Nat.div_div_eq_div_mul]
    generalize k / b ^ (n - 1 - r) = q
    rw [Nat.pow_succ, Nat.mul_comm (b ^ r) b, Nat.mod_mul]
    rw [Nat.mul_comm]
    omega

theorem AtIndex_charges (E : Env) (b k : Nat) (hb : 2 ≤ b) (hb3 : b ≤ 3) (s : Cds) (h : AtIndex E b k s) (hk : k < b ^ E.n) :
    s.charges E.n = chargesOf b E.n k := by
  unfold Cds.charges chargesOf
  refine List.map_congr_left fun i hi => ?_
  refine value_inj b none (by omega) E.n (c' := fun i => Charge.ofDigit (k / b ^ (E.n - 1 - i) % b))
    (fun i hi _ => h.digits i hi) ?_ ?_ i (List.mem_range.1 hi) (by simp)
  · intro i _ _
    rw [digit_ofDigit (lt_of_lt_of_le (Nat.mod_lt _ (by omega)) hb3)]
    exact Nat.mod_lt _ (by omega)
  · rw [h.val, value_chargesOf b E.n k E.n hb hb3 (Nat.le_refl _)]
    simp [Nat.mod_eq_of_lt hk]

theorem ofList_charges (s : Cds) (n i : Nat) (hi : i < n) : ofList (s.charges n) i = s.charge i := by
  simp [ofList, Cds.charges, hi]

open Classical in
theorem exgsLoop_eq (E : Env) (b : Nat) (hb : 2 ≤ b) (hb3 : b ≤ 3) (fuel : Nat) : ∀ (k : Nat) (s : Cds), AtIndex E b k s →
    k < b ^ E.n → b ^ E.n ≤ k + fuel →
    exgsLoop E fuel s = some (((List.range' k (b ^ E.n - k)).map (chargesOf b E.n)).filter fun l => decide (Valid E (ofList l))) := by
  have hself : ∀ k s, AtIndex E b k s → k < b ^ E.n →
      (if s.valid = true then [s.charges E.n] else []) = ([chargesOf b E.n k].filter fun l => decide (Valid E (ofList l))) := by
    intro k s h hk
    have e := AtIndex_charges E b k hb hb3 s h hk
    have : s.valid = true ↔ Valid E (ofList (s.charges E.n)) :=
      h.valid.trans (Valid_congr E fun i hi => (ofList_charges s E.n i hi).symm)
    rw [e] at this
    by_cases hv : s.valid = true
    · rw [if_pos hv, e]; simp [this.1 hv]
    · rw [if_neg hv]; simp [show ¬ Valid E _ from fun h => hv (this.2 h)]
  induction fuel with
  | zero => intro k s _ hk hle; omega
  | succ fuel ih =>
    intro k s h hk hle
    unfold exgsLoop
    by_cases hlt : k < b ^ E.n - 1
    · rw [if_pos (by rw [h.index, h.max]; exact hlt)]
      obtain ⟨s', e, h'⟩ := AtIndex_step E b k hb hb3 s h hlt
      rw [e, Option.bind_some, ih (k + 1) s' h' (by omega) (by omega), Option.map_some, hself k s h hk]
      congr 1
      rw [show b ^ E.n - k = (b ^ E.n - (k + 1)) + 1 by omega, List.range'_succ, List.map_cons, ← List.filter_append]
      rfl
    · rw [if_neg (by rw [h.index, h.max]; exact hlt), hself k s h hk, show b ^ E.n - k = 1 by omega]
      rfl

theorem chargesOf_inj (b n : Nat) (hb : 2 ≤ b) (hb3 : b ≤ 3) {k k' : Nat} (hk : k < b ^ n) (hk' : k' < b ^ n)
    (e : chargesOf b n k = chargesOf b n k') : k = k' := by
  have h1 := value_chargesOf b n k n hb hb3 (Nat.le_refl _)
  have h2 := value_chargesOf b n k' n hb hb3 (Nat.le_refl _)
  simp only [Nat.sub_self, Nat.pow_zero, Nat.div_one, Nat.mod_eq_of_lt hk, Nat.mod_eq_of_lt hk'] at h1 h2
  rw [← h1, ← h2]
  refine value_congr b none n fun i hi _ => ?_
  exact List.map_inj_left.1 e i (List.mem_range.2 hi)

theorem mem_chargesOf (b n : Nat) (hb : b = 2 ∨ b = 3) (l : List Charge) :
    (∃ k < b ^ n, chargesOf b n k = l) ↔ l.length = n ∧ ∀ x ∈ l, Admissible b x := by
  constructor
  · rintro ⟨k, _, rfl⟩
    refine ⟨by simp [chargesOf], ?_⟩
    intro x hx
    simp only [chargesOf, List.mem_map] at hx
    obtain ⟨i, _, rfl⟩ := hx
    rw [← digit_lt_iff hb]
    have : k / b ^ (n - 1 - i) % b < b := Nat.mod_lt _ (by omega)
    rw [digit_ofDigit (by omega)]
    exact this
  · rintro ⟨hl, ha⟩
    have hdig : ∀ i < n, none ≠ some i → (ofList l i).digit < b := by
      intro i hi _
      rw [digit_lt_iff hb]
      apply ha
      simp [ofList, List.getElem?_eq_getElem (hl ▸ hi)]
    refine ⟨value b none (ofList l) n, by simpa [free_none] using value_lt b none (ofList l) n hdig, ?_⟩
    have hk : value b none (ofList l) n < b ^ n := by simpa [free_none] using value_lt b none (ofList l) n hdig
    refine List.ext_getElem (by simp [chargesOf, hl]) fun i h1 h2 => ?_
    have hi : i < n := by omega
    simp only [chargesOf, List.getElem_map, List.getElem_range]
    have := value_inj b none (by omega) n (c := fun i => Charge.ofDigit (value b none (ofList l) n / b ^ (n - 1 - i) % b))
      (c' := ofList l) (fun i _ _ => by
        have : value b none (ofList l) n / b ^ (n - 1 - i) % b < b := Nat.mod_lt _ (by omega)
        rw [digit_ofDigit (by omega)]
        exact this) hdig
      (by rw [value_chargesOf b n _ n (by omega) (by omega) (Nat.le_refl _)]; simp [Nat.mod_eq_of_lt hk]) i hi (by simp)
    rw [this]
    simp [ofList, h2]

end Verif.Sidb
