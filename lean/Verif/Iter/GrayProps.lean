import Verif.Iter.Model
import Mathlib.Data.Nat.Bitwise

/-! # C26: the Gray code iterator -/
namespace Verif.Iter

/-- `c` and `d` differ in exactly one of their 64 bits. -/
def DifferInOneBit (c d : BitVec 64) : Prop :=
  ∃ k, k < 64 ∧ ∀ j, j < 64 → (c.getLsbD j ≠ d.getLsbD j ↔ j = k)

theorem grayOf_bit (i : BitVec 64) (j : Nat) : (grayOf i).getLsbD j = (i.getLsbD j ^^ i.getLsbD (j + 1)) := by
  simp [grayOf, BitVec.getLsbD_xor, BitVec.getLsbD_ushiftRight, Nat.add_comm]

theorem nat_succ_bits (n : Nat) : ∃ k, ∀ j, ((n + 1).testBit j ≠ n.testBit j) ↔ j ≤ k := by
  induction n using Nat.strong_induction_on with
  | _ n ih =>
    obtain ⟨m, hm⟩ : ∃ m, n = 2 * m ∨ n = 2 * m + 1 := ⟨n / 2, by omega⟩
    rcases hm with rfl | rfl
    · refine ⟨0, fun j => ?_⟩
      cases j with
      | zero => simp [Nat.testBit_zero]
      | succ j =>
        have : (2 * m + 1) / 2 = 2 * m / 2 := by omega
        simp [Nat.testBit_succ, this]
    · obtain ⟨k, hk⟩ := ih m (by omega)
      refine ⟨k + 1, fun j => ?_⟩
      cases j with
      | zero =>
        have h1 : (2 * m + 1 + 1) % 2 = 0 := by omega
        have h2 : (2 * m + 1) % 2 = 1 := by omega
        simp [Nat.testBit_zero, h1, h2]
      | succ j =>
        have h1 : (2 * m + 1 + 1) / 2 = m + 1 := by omega
        have h2 : (2 * m + 1) / 2 = m := by omega
        rw [Nat.testBit_succ, Nat.testBit_succ, h1, h2, hk j]
        omega

theorem bv_succ_bits (i : BitVec 64) :
    ∃ k, k < 64 ∧ ∀ j, j < 64 → ((i + 1).getLsbD j ≠ i.getLsbD j ↔ j ≤ k) := by
  by_cases h : i.toNat + 1 < 2 ^ 64
  · obtain ⟨k, hk⟩ := nat_succ_bits i.toNat
    have e : (i + 1).toNat = i.toNat + 1 := by
      rw [BitVec.toNat_add]; simpa using Nat.mod_eq_of_lt h
    have hk64 : k < 64 := by
      by_contra hc
      have h1 := (hk 64).2 (by omega)
      rw [Nat.testBit_lt_two_pow h, Nat.testBit_lt_two_pow i.isLt] at h1
      exact h1 rfl
    refine ⟨k, hk64, fun j hj => ?_⟩
    rw [BitVec.getLsbD, BitVec.getLsbD, e]
    exact hk j
  · have hi : i = BitVec.allOnes 64 := by
      apply BitVec.eq_of_toNat_eq
      have := i.isLt
      simp only [BitVec.toNat_allOnes]
      omega
    refine ⟨63, by omega, fun j hj => ?_⟩
    subst hi
    have : (BitVec.allOnes 64 + 1 : BitVec 64) = 0 := by decide
    rw [this, BitVec.getLsbD_allOnes]
    have h0 : (0 : BitVec 64).getLsbD j = false := by simp
    rw [h0, decide_eq_true hj]
    exact ⟨fun _ => by omega, fun _ => by simp⟩

/-- **C26** (one bit): advancing the iterator from any state the constructor or a mutating operator can produce
changes exactly one bit of the word it yields, including when the 64-bit counter wraps. -/
theorem C26_successor_one_bit (i : BitVec 64) : DifferInOneBit (grayOf i) (grayOf (i + 1)) := by
  obtain ⟨k, hk, h⟩ := bv_succ_bits i
  refine ⟨k, hk, fun j hj => ?_⟩
  rw [grayOf_bit, grayOf_bit]
  have h0 := h j hj
  by_cases hj1 : j + 1 < 64
  · have h1 := h (j + 1) hj1
    generalize i.getLsbD j = a at *
    generalize i.getLsbD (j + 1) = b at *
    generalize (i + 1).getLsbD j = c at *
    generalize (i + 1).getLsbD (j + 1) = d at *
    clear h
    cases a <;> cases b <;> cases c <;> cases d <;> simp at h0 h1 ⊢ <;> omega
  · have e1 : i.getLsbD (j + 1) = false := BitVec.getLsbD_of_ge _ _ (by omega)
    have e2 : (i + 1).getLsbD (j + 1) = false := BitVec.getLsbD_of_ge _ _ (by omega)
    rw [e1, e2]
    clear h e1 e2
    generalize i.getLsbD j = a at *
    generalize (i + 1).getLsbD j = c at *
    cases a <;> cases c <;> simp at h0 ⊢ <;> omega

/-- Bits are determined from the top down. -/
theorem grayOf_injective {a b : BitVec 64} (h : grayOf a = grayOf b) : a = b := by
  have key : ∀ m j, 64 ≤ j + m → a.getLsbD j = b.getLsbD j := by
    intro m
    induction m with
    | zero => intro j hj; rw [BitVec.getLsbD_of_ge _ _ (by omega), BitVec.getLsbD_of_ge _ _ (by omega)]
    | succ m ih =>
      intro j hj
      have h1 := ih (j + 1) (by omega)
      have h2 : (grayOf a).getLsbD j = (grayOf b).getLsbD j := by rw [h]
      rw [grayOf_bit, grayOf_bit, h1] at h2
      revert h2
      cases a.getLsbD j <;> cases b.getLsbD j <;> cases b.getLsbD (j + 1) <;> simp
  exact BitVec.eq_of_getLsbD_eq fun j _ => key 64 j (by omega)

theorem nat_gray_surj (n w : Nat) (h : w < 2 ^ n) : ∃ i, i < 2 ^ n ∧ i ^^^ (i >>> 1) = w := by
  induction n generalizing w with
  | zero => exact ⟨0, by simp, by simp at h; simp [h]⟩
  | succ n ih =>
    obtain ⟨i, hi, he⟩ := ih (w / 2) (by rw [Nat.pow_succ] at h; omega)
    -- choose the low bit
    obtain ⟨b, hb, hbw⟩ : ∃ b, b < 2 ∧ (b ^^^ (i % 2)) % 2 = w % 2 := by
      rcases Nat.mod_two_eq_zero_or_one i with e | e <;> rcases Nat.mod_two_eq_zero_or_one w with f | f <;>
        rw [e, f]
      · exact ⟨0, by decide⟩
      · exact ⟨1, by decide⟩
      · exact ⟨1, by decide⟩
      · exact ⟨0, by decide⟩
    refine ⟨2 * i + b, by rw [Nat.pow_succ]; omega, ?_⟩
    have hs : (2 * i + b) >>> 1 = i := by rw [Nat.shiftRight_eq_div_pow]; omega
    rw [hs]
    have h1 : ((2 * i + b) ^^^ i) / 2 = w / 2 := by
      rw [Nat.xor_div_two, ← he]
      have : (2 * i + b) / 2 = i := by omega
      rw [this, Nat.shiftRight_eq_div_pow]
    have h2 : ((2 * i + b) ^^^ i) % 2 = w % 2 := by
      have hx := Nat.xor_mod_two_pow (a := 2 * i + b) (b := i) (n := 1)
      have hy := Nat.xor_mod_two_pow (a := b) (b := i % 2) (n := 1)
      simp only [Nat.pow_one] at hx hy
      rw [← hbw, hx, hy]
      have e1 : (2 * i + b) % 2 = b % 2 := by omega
      have e2 : i % 2 % 2 = i % 2 := by omega
      rw [e1, e2]
    omega

/-- **C26** (bijection): for every width `n ≤ 64` the positions below `2^n` yield each `n`-bit word exactly once. -/
theorem C26_bijection (n : Nat) (hn : n ≤ 64) :
    (∀ i : BitVec 64, i.toNat < 2 ^ n → (grayOf i).toNat < 2 ^ n) ∧
    (∀ w : BitVec 64, w.toNat < 2 ^ n → ∃ i : BitVec 64, (i.toNat < 2 ^ n ∧ grayOf i = w) ∧
      ∀ j : BitVec 64, grayOf j = w → j = i) := by
  have hp : 2 ^ n ≤ 2 ^ 64 := Nat.pow_le_pow_right (by omega) hn
  constructor
  · intro i hi
    simp only [grayOf, BitVec.toNat_xor, BitVec.toNat_ushiftRight]
    refine Nat.xor_lt_two_pow hi ?_
    rw [Nat.shiftRight_eq_div_pow]
    omega
  · intro w hw
    obtain ⟨i, hi, he⟩ := nat_gray_surj n w.toNat hw
    refine ⟨BitVec.ofNat 64 i, ⟨?_, ?_⟩, ?_⟩
    · rw [BitVec.toNat_ofNat, Nat.mod_eq_of_lt (by omega)]; exact hi
    · apply BitVec.eq_of_toNat_eq
      simp only [grayOf, BitVec.toNat_xor, BitVec.toNat_ushiftRight]
      rw [BitVec.toNat_ofNat, Nat.mod_eq_of_lt (by omega)]; exact he
    · intro j hj
      apply grayOf_injective
      rw [hj]
      apply BitVec.eq_of_toNat_eq
      simp only [grayOf, BitVec.toNat_xor, BitVec.toNat_ushiftRight]
      rw [BitVec.toNat_ofNat, Nat.mod_eq_of_lt (by omega)]; exact he.symm

/-- Net position after a history of operators, as a plain sum. -/
def position (start : BitVec 64) : List GrayOp → BitVec 64
  | ops => ops.foldl (fun p op => match op with
      | .inc => p + 1
      | .dec => p - 1
      | .add m => p + BitVec.ofInt 64 m
      | .sub m => p - BitVec.ofInt 64 m
      | .assign m => m) start

/-- **C26** (history): after every sequence of operators the word yielded is `p xor (p >> 1)` at the net position
`p`; `operator[]` is unaffected by the history. -/
theorem C26_history (start : BitVec 64) (ops : List GrayOp) :
    ((Gray.mk' start).run ops).iter = position start ops ∧
    ((Gray.mk' start).run ops).code = position start ops ^^^ (position start ops >>> 1) ∧
    ∀ k, ((Gray.mk' start).run ops).at k = (start + k) ^^^ ((start + k) >>> 1) := by
  have key : ∀ (ops : List GrayOp) (g : Gray), g.code = grayOf g.iter →
      (g.run ops).iter = position g.iter ops ∧ (g.run ops).code = grayOf (position g.iter ops) ∧
      (g.run ops).start = g.start := by
    intro ops
    induction ops with
    | nil => intro g hg; exact ⟨rfl, hg, rfl⟩
    | cons op ops ih =>
      intro g hg
      have := ih (g.step op) (by cases op <;> rfl)
      have hs : (g.step op).start = g.start := by cases op <;> rfl
      rw [hs] at this
      refine ⟨?_, ?_, this.2.2⟩
      · rw [show g.run (op :: ops) = (g.step op).run ops from rfl, this.1]; cases op <;> rfl
      · rw [show g.run (op :: ops) = (g.step op).run ops from rfl, this.2.1]; cases op <;> rfl
  obtain ⟨h1, h2, h3⟩ := key ops (Gray.mk' start) rfl
  refine ⟨h1, h2, fun k => ?_⟩
  simp only [Gray.at, h3]
  rfl

example : ((Gray.mk' 2).run [.inc, .add 3, .dec, .sub (-2)]).code = 4#64 := by decide

/-- **C26** (equality): two iterators compare equal exactly if they stand at the same position. -/
theorem C26_eq_iff_same_position (s t : BitVec 64) (o p : List GrayOp) :
    ((Gray.mk' s).run o).eq ((Gray.mk' t).run p) = true ↔ position s o = position t p := by
  have h1 := (C26_history s o).2.1
  have h2 := (C26_history t p).2.1
  simp only [Gray.eq, beq_iff_eq, h1, h2]
  exact ⟨fun h => grayOf_injective h, fun h => by rw [h]⟩

/-- **C26** (order against a number) is the order of positions. -/
theorem C26_ltNum_iff (s : BitVec 64) (o : List GrayOp) (m : BitVec 64) :
    ((Gray.mk' s).run o).ltNum m = true ↔ (position s o).toNat < m.toNat := by
  simp [Gray.ltNum, (C26_history s o).1, BitVec.ult]

/-- **C26** (finding): `<` between iterators compares Gray codes, so it is not the order of positions: the iterator
at 2 is not `<` the iterator one step further, although their difference is one. -/
theorem C26_iterator_order_disagrees :
    ∃ a : Gray, a = (Gray.mk' 0).run [.inc, .inc] ∧ (a.step .inc).diff a = 1 ∧
      a.lt (a.step .inc) = false ∧ (a.step .inc).lt a = true := ⟨_, rfl, by decide⟩

/-- **C26** (finding), in general: advancing an iterator makes it larger in the sense of `<` exactly if the bit that
changes is being set. -/
theorem C26_iterator_order (i : BitVec 64) :
    (⟨0, i, grayOf i⟩ : Gray).lt ⟨0, i + 1, grayOf (i + 1)⟩ = true ↔
      ∃ k, k < 64 ∧ (grayOf i).getLsbD k = false ∧ (grayOf (i + 1)).getLsbD k = true := by
  obtain ⟨k, hk, h⟩ := C26_successor_one_bit i
  have hk' := (h k hk).2 rfl
  -- the two words differ only in bit `k`
  have cmp : ∀ a b : BitVec 64, a.getLsbD k = false → b.getLsbD k = true →
      (∀ j, j < 64 → (a.getLsbD j ≠ b.getLsbD j ↔ j = k)) → a.toNat < b.toNat := by
    intro a b ha hb hab
    apply Nat.lt_of_testBit k ha hb
    intro j hj
    by_cases hj64 : j < 64
    · have := hab j hj64
      by_contra hne
      exact absurd (this.1 hne) (by omega)
    · rw [Nat.testBit_lt_two_pow (Nat.lt_of_lt_of_le a.isLt (Nat.pow_le_pow_right (by omega) (by omega))),
        Nat.testBit_lt_two_pow (Nat.lt_of_lt_of_le b.isLt (Nat.pow_le_pow_right (by omega) (by omega)))]
  simp only [Gray.lt, BitVec.ult, decide_eq_true_eq]
  constructor
  · intro hlt
    refine ⟨k, hk, ?_⟩
    cases hc : (grayOf i).getLsbD k with
    | false => rw [hc] at hk'; exact ⟨rfl, by revert hk'; cases (grayOf (i + 1)).getLsbD k <;> simp⟩
    | true =>
      have hd : (grayOf (i + 1)).getLsbD k = false := by
        rw [hc] at hk'; revert hk'; cases (grayOf (i + 1)).getLsbD k <;> simp
      have := cmp _ _ hd hc (fun j hj => by rw [ne_comm]; exact h j hj)
      omega
  · rintro ⟨k', hk1, h1, h2⟩
    have : k' = k := (h k' hk1).1 (by rw [h1, h2]; simp)
    subst this
    exact cmp _ _ h1 h2 h

example : grayOf 5 = 7#64 ∧ grayOf 6 = 5#64 := by decide

end Verif.Iter
