import Verif.Sidb.IndexLemmas

/-!
# C35: charge indices and charge distributions correspond one to one
-/
namespace Verif.Sidb

/-- The number of SiDBs that carry a digit of the charge index: all but the dependent one. -/
def numDigits (n : Nat) (dep : Option Nat) : Nat := if dep.isSome then n - 1 else n

theorem numDigits_eq (n : Nat) (dep : Option Nat) (h : ∀ d, dep = some d → d < n) : numDigits n dep = free dep n :=
  (free_top dep n h).symm

theorem digit_lt_iff {b : Nat} (hb : b = 2 ∨ b = 3) (c : Charge) : c.digit < b ↔ Admissible b c := by
  unfold Admissible
  rcases hb with rfl | rfl <;> cases c <;> simp [Charge.digit]

/-- Assigning any index up to the maximum to a surface with any previous charge distribution is defined, sets
only charge states of the base and gives back the same index when the index is recomputed. -/
theorem C35_roundtrip (b n : Nat) (dep : Option Nat) (hb : b = 2 ∨ b = 3) (hd : ∀ d, dep = some d → d < n) (k : Nat)
    (hk : k < b ^ numDigits n dep) (old : Nat → Charge) :
    ∃ c, indexToCharge b n dep true k old = some c ∧ (∀ i < n, dep ≠ some i → Admissible b (c i)) ∧ toIndex b n dep c = k := by
  rw [numDigits_eq n dep hd] at hk
  obtain ⟨c, h1, h2, h3⟩ := indexToCharge_scratch b n dep (by omega) (by omega) k hk old
  exact ⟨c, h1, fun i hi hne => (digit_lt_iff hb _).1 (h3 i hi hne), by rw [toIndex_eq b n dep c hd, h2]⟩

example : ∃ c, indexToCharge 3 4 (some 1) true 22 (fun _ => .pos) = some c ∧
    (List.range 4).map c = [.pos, .pos, .neu, .neu] ∧ toIndex 3 4 (some 1) c = 22 := ⟨_, rfl, by decide, by decide⟩

/-- Every charge distribution over the states of the base has an index up to the maximum, and assigning this
index gives back the distribution on all SiDBs other than the dependent one. -/
theorem C35_surjective (b n : Nat) (dep : Option Nat) (hb : b = 2 ∨ b = 3) (hd : ∀ d, dep = some d → d < n) (c : Nat → Charge)
    (hc : ∀ i < n, dep ≠ some i → Admissible b (c i)) (old : Nat → Charge) :
    toIndex b n dep c < b ^ numDigits n dep ∧
      ∃ c', indexToCharge b n dep true (toIndex b n dep c) old = some c' ∧ ∀ i < n, dep ≠ some i → c' i = c i := by
  have hc' : ∀ i < n, dep ≠ some i → (c i).digit < b := fun i hi hne => (digit_lt_iff hb _).2 (hc i hi hne)
  have hlt := value_lt b dep c n hc'
  rw [toIndex_eq b n dep c hd, numDigits_eq n dep hd]
  refine ⟨hlt, ?_⟩
  obtain ⟨c', h1, h2, h3⟩ := indexToCharge_scratch b n dep (by omega) (by omega) _ hlt old
  exact ⟨c', h1, value_inj b dep (by omega) n h3 hc' h2⟩

/-- Two charge distributions with the same index agree on all SiDBs other than the dependent one. -/
theorem C35_injective (b n : Nat) (dep : Option Nat) (hb : b = 2 ∨ b = 3) (hd : ∀ d, dep = some d → d < n) (c c' : Nat → Charge)
    (hc : ∀ i < n, dep ≠ some i → Admissible b (c i)) (hc' : ∀ i < n, dep ≠ some i → Admissible b (c' i))
    (e : toIndex b n dep c = toIndex b n dep c') : ∀ i < n, dep ≠ some i → c i = c' i := by
  rw [toIndex_eq b n dep c hd, toIndex_eq b n dep c' hd] at e
  exact value_inj b dep (by omega) n (fun i hi hne => (digit_lt_iff hb _).2 (hc i hi hne))
    (fun i hi hne => (digit_lt_iff hb _).2 (hc' i hi hne)) e

/-- Increasing the index by one (which does not touch leading zeroes) gives the distribution of the next index
and leaves the dependent SiDB alone. -/
theorem C35_increment (b n : Nat) (dep : Option Nat) (hb : b = 2 ∨ b = 3) (hd : ∀ d, dep = some d → d < n) (c : Nat → Charge)
    (hc : ∀ i < n, dep ≠ some i → Admissible b (c i)) (hk : toIndex b n dep c + 1 < b ^ numDigits n dep) :
    ∃ c', indexToCharge b n dep false (toIndex b n dep c + 1) c = some c' ∧
      (∀ i < n, dep ≠ some i → Admissible b (c' i)) ∧ toIndex b n dep c' = toIndex b n dep c + 1 ∧
      ∀ d, dep = some d → c' d = c d := by
  have hc' : ∀ i < n, dep ≠ some i → (c i).digit < b := fun i hi hne => (digit_lt_iff hb _).2 (hc i hi hne)
  rw [numDigits_eq n dep hd] at hk
  obtain ⟨c', h1, h2, h3, h4⟩ := indexToCharge_next b n dep (by omega) (by omega) _ hk c hc' (toIndex_eq b n dep c hd).symm
  exact ⟨c', h1, fun i hi hne => (digit_lt_iff hb _).1 (h3 i hi hne), by rw [toIndex_eq b n dep c' hd, h2], h4⟩

example : toIndex 3 3 none (fun i => [Charge.neg, .neu, .pos].getD i .neg) = 5 ∧
    ((indexToCharge 3 3 none false 6 (fun i => [Charge.neg, .neu, .pos].getD i .neg)).map fun c => (List.range 3).map c) =
      some [.neg, .pos, .neg] := by decide

/-- The first SiDB is the most significant one: all SiDBs negative is index zero, and raising the charge state
of one SiDB by one step raises the index by the base to the number of digits after it. -/
theorem C35_weight (b n : Nat) (c : Nat → Charge) (i : Nat) (hi : i < n) (x y : Charge) (hxy : y.digit = x.digit + 1) :
    toIndex b n none (fun _ => .neg) = 0 ∧
      toIndex b n none (setAt c i y) = toIndex b n none (setAt c i x) + b ^ (n - 1 - i) := by
  constructor
  · rw [toIndex_eq b n none _ (by simp), value_neg _ _ _ _ (fun _ _ _ => rfl)]
  · rw [toIndex_eq b n none _ (by simp), toIndex_eq b n none _ (by simp)]
    induction n with
    | zero => omega
    | succ n ih =>
      simp only [value, reduceCtorEq, if_false]
      by_cases hin : i = n
      · subst hin
        rw [value_congr b none i (c := setAt c i y) (c' := setAt c i x) (fun j hj _ => by simp [setAt, show j ≠ i by omega])]
        simp [setAt, hxy]; omega
      · rw [ih (by omega)]
        rw [show n + 1 - 1 - i = (n - 1 - i) + 1 by omega, Nat.pow_succ]
        simp only [setAt, if_neg (show ¬ n = i by omega)]
        ring

end Verif.Sidb
