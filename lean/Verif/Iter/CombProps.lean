import Verif.Iter.Model
import Mathlib.Data.Nat.Choose.Basic
import Mathlib.Data.List.Nodup
import Mathlib.Data.Nat.Choose.Bounds
import Mathlib.Data.Nat.Choose.Sum
import Mathlib.Data.List.Induction
import Mathlib.Data.List.Perm.Subperm
import Mathlib.Tactic.NormNum
import Mathlib.Tactic.Tauto

/-! # C28: binomial coefficients, cartesian products, combinations -/
namespace Verif.Iter

theorem binomLoop_eq (n : Nat) : ∀ j i, i + j ≤ n →
    (∀ m, 1 ≤ m → m ≤ i + j → n.choose (m - 1) * (n + 1 - m) < 2 ^ 64) →
    binomLoop n j (i + 1) (n.choose i) = n.choose (i + j) := by
  intro j
  induction j with
  | zero => intro i _ _; rfl
  | succ j ih =>
    intro i hle hb
    have h1 : n.choose i * (n + 1 - (i + 1)) < 2 ^ 64 := hb (i + 1) (by omega) (by omega)
    have h2 : n.choose i * (n + 1 - (i + 1)) = n.choose (i + 1) * (i + 1) := by
      rw [Nat.choose_succ_right_eq, Nat.add_sub_add_right]
    simp only [binomLoop]
    rw [Nat.mod_eq_of_lt h1, h2, Nat.mul_div_cancel _ (by omega), ih (i + 1) (by omega)
      (fun m hm1 hm2 => hb m hm1 (by omega))]
    congr 1
    omega

/-- **C28** (binomial): whenever none of the partial products of the documented algorithm leaves 64 bits, the
function returns the number of `k`-element subsets of an `n`-element set. -/
theorem C28_binomial_exact (n k : Nat)
    (hb : ∀ m, 1 ≤ m → m ≤ min k (n - k) → n.choose (m - 1) * (n + 1 - m) < 2 ^ 64) :
    binomialCoefficient n k = n.choose k := by
  unfold binomialCoefficient
  split
  · rename_i h; rw [Nat.choose_eq_zero_of_lt h]
  · rename_i h
    have hk : k ≤ n := by omega
    dsimp only
    have key : ∀ k', k' ≤ n → k' = min k (n - k) → binomLoop n k' 1 1 = n.choose k' := by
      intro k' hk' he
      have := binomLoop_eq n k' 0 (by omega) (fun m h1 h2 => hb m h1 (by omega))
      simpa using this
    split
    · rw [key _ (by omega) (by omega), Nat.choose_symm hk]
    · rw [key _ (by omega) (by omega)]

/-- The hypothesis is met by every `n ≤ 58`: in particular by all sizes the simulators can enumerate. -/
theorem C28_binomial_exact_small (n k : Nat) (hn : n ≤ 58) : binomialCoefficient n k = n.choose k := by
  apply C28_binomial_exact
  intro m hm1 hm2
  have h1 : n.choose (m - 1) ≤ 2 ^ n := Nat.choose_le_two_pow n (m - 1)
  have h2 : (2 : Nat) ^ n ≤ 2 ^ 58 := Nat.pow_le_pow_right (by omega) hn
  calc n.choose (m - 1) * (n + 1 - m) ≤ 2 ^ 58 * 58 := Nat.mul_le_mul (by omega) (by omega)
    _ < 2 ^ 64 := by norm_num

example : binomialCoefficient 10 7 = 120 := by decide

/-- **C28** (finding): the true coefficient may fit 64 bits while the result is wrong, because the partial product
overflows first. -/
theorem C28_binomial_overflow :
    ∃ n k, n.choose k < 2 ^ 64 ∧ binomialCoefficient n k ≠ n.choose k := by
  refine ⟨2 ^ 32 + 1, 2, ?_, ?_⟩
  · rw [Nat.choose_two_right]; norm_num
  · rw [Nat.choose_two_right]
    simp [binomialCoefficient, binomLoop]

variable {α : Type}

theorem mem_expand {all : List (List α)} {d : List α} {l : List α} :
    l ∈ expand all d ↔ ∃ p ∈ all, ∃ e ∈ d, l = p ++ [e] := by
  simp only [expand, List.mem_flatMap, List.mem_map]
  constructor
  · rintro ⟨p, hp, e, he, rfl⟩; exact ⟨p, hp, e, he, rfl⟩
  · rintro ⟨p, hp, e, he, rfl⟩; exact ⟨p, hp, e, he, rfl⟩

theorem cartesian_append (sets : List (List α)) (d : List α) :
    cartesianCombinations (sets ++ [d]) = expand (cartesianCombinations sets) d := by
  simp [cartesianCombinations, List.foldl_append]

theorem forall2_append_singleton {R : α → List α → Prop} {l : List α} {sets : List (List α)} {d : List α} :
    List.Forall₂ R l (sets ++ [d]) ↔ ∃ p e, l = p ++ [e] ∧ List.Forall₂ R p sets ∧ R e d := by
  constructor
  · intro h
    induction sets generalizing l with
    | nil =>
      cases h with
      | cons h1 h2 => cases h2; exact ⟨[], _, rfl, .nil, h1⟩
    | cons s sets ih =>
      cases h with
      | cons h1 h2 =>
        obtain ⟨p, e, rfl, h3, h4⟩ := ih h2
        exact ⟨_ :: p, e, rfl, .cons h1 h3, h4⟩
  · rintro ⟨p, e, rfl, h, he⟩
    induction h with
    | nil => exact .cons he .nil
    | cons h1 _ ih => exact .cons h1 ih

/-- **C28** (product, contents): the result consists of exactly the tuples whose `i`-th entry is taken from the
`i`-th input set. -/
theorem C28_cartesian_mem (sets : List (List α)) (l : List α) :
    l ∈ cartesianCombinations sets ↔ List.Forall₂ (fun e s => e ∈ s) l sets := by
  induction sets using List.reverseRecOn generalizing l with
  | nil => simp [cartesianCombinations]
  | append_singleton sets d ih =>
    rw [cartesian_append, mem_expand, forall2_append_singleton]
    constructor
    · rintro ⟨p, hp, e, he, rfl⟩; exact ⟨p, e, rfl, (ih p).1 hp, he⟩
    · rintro ⟨p, e, rfl, hp, he⟩; exact ⟨p, (ih p).2 hp, e, he, rfl⟩

/-- **C28** (product, size). -/
theorem C28_cartesian_length (sets : List (List α)) :
    (cartesianCombinations sets).length = (sets.map List.length).prod := by
  induction sets using List.reverseRecOn with
  | nil => rfl
  | append_singleton sets d ih =>
    rw [cartesian_append, List.map_append, List.prod_append, ← ih]
    simp only [expand, List.length_flatMap, List.length_map, List.map_const', List.sum_replicate,
      List.map_cons, List.map_nil, List.prod_cons, List.prod_nil, Nat.mul_one]
    rfl

/-- **C28** (product, order): if every input set is strictly increasing for a relation `r`, the result is strictly
increasing for the lexicographic order; in particular no tuple occurs twice. -/
theorem C28_cartesian_sorted (r : α → α → Prop) (sets : List (List α)) (h : ∀ s ∈ sets, s.Pairwise r) :
    (cartesianCombinations sets).Pairwise (List.Lex r) := by
  induction sets using List.reverseRecOn with
  | nil => simp [cartesianCombinations]
  | append_singleton sets d ih =>
    rw [cartesian_append]
    have ih := ih (fun s hs => h s (by simp [hs]))
    have hd : d.Pairwise r := h d (by simp)
    have hlen : ∀ p ∈ cartesianCombinations sets, p.length = sets.length := fun p hp =>
      ((C28_cartesian_mem sets p).1 hp).length_eq
    -- lexicographic order is stable under appending to tuples of equal length
    have lexA : ∀ p q : List α, p.length = q.length → List.Lex r p q → ∀ a b, List.Lex r (p ++ a) (q ++ b) := by
      intro p q hl hlex a b
      induction hlex with
      | nil => simp at hl
      | cons _ ih => exact .cons (ih (by simpa using hl))
      | rel h => exact .rel h
    have lexB : ∀ p a b : List α, List.Lex r a b → List.Lex r (p ++ a) (p ++ b) := by
      intro p a b hab
      induction p with
      | nil => exact hab
      | cons x p ih => exact .cons ih
    rw [expand, List.pairwise_flatMap]
    refine ⟨?_, ?_⟩
    · intro p _
      rw [List.pairwise_map]
      exact hd.imp fun hab => lexB p _ _ (.rel hab)
    · refine List.Pairwise.imp_of_mem ?_ ih
      intro p q hp hq hpq x hx y hy
      rw [List.mem_map] at hx hy
      obtain ⟨a, _, rfl⟩ := hx
      obtain ⟨b, _, rfl⟩ := hy
      exact lexA p q (by rw [hlen p hp, hlen q hq]) hpq _ _

/-- **C28** (product, no repetition). -/
theorem C28_cartesian_nodup (sets : List (List α)) (h : ∀ s ∈ sets, s.Nodup) :
    (cartesianCombinations sets).Nodup := by
  induction sets using List.reverseRecOn with
  | nil => simp [cartesianCombinations]
  | append_singleton sets d ih =>
    rw [cartesian_append, expand, List.nodup_flatMap]
    refine ⟨fun p _ => ?_, ?_⟩
    · exact (h d (by simp)).map fun a b hab => by simpa using hab
    · refine List.Pairwise.imp ?_ (ih (fun s hs => h s (by simp [hs])))
      intro p q hpq x hx hy
      rw [List.mem_map] at hx hy
      obtain ⟨a, _, rfl⟩ := hx
      obtain ⟨b, _, hb⟩ := hy
      exact hpq (List.append_inj_left' hb rfl).symm

example : cartesianCombinations [[1, 2], [3], [4, 5]] = [[1, 3, 4], [1, 3, 5], [2, 3, 4], [2, 3, 5]] := by decide
example : cartesianCombinations [[1, 2], [], [4, 5]] = [] := by decide

/-- What the external enumerator is assumed to deliver: the subsequences of length `k`. -/
theorem mem_kSubsequences {l : List α} : ∀ {k : Nat} {s : List α},
    s ∈ kSubsequences k l ↔ s.Sublist l ∧ s.length = k := by
  induction l with
  | nil =>
    intro k s
    cases k with
    | zero => simp [kSubsequences]
    | succ k =>
      simp only [kSubsequences, List.not_mem_nil, List.sublist_nil, false_iff, not_and]
      rintro rfl; simp
  | cons a l ih =>
    intro k s
    cases k with
    | zero => simp only [kSubsequences, List.mem_singleton, List.length_eq_zero_iff]; constructor
              · rintro rfl; exact ⟨List.nil_sublist _, rfl⟩
              · exact fun h => h.2
    | succ k =>
      simp only [kSubsequences, List.mem_append, List.mem_map, ih]
      constructor
      · rintro (⟨t, ⟨h1, h2⟩, rfl⟩ | ⟨h1, h2⟩)
        · exact ⟨h1.cons_cons a, by simp [h2]⟩
        · exact ⟨h1.cons a, h2⟩
      · rintro ⟨h1, h2⟩
        cases h1 with
        | cons _ h1 => exact Or.inr ⟨h1, h2⟩
        | cons_cons _ h1 => exact Or.inl ⟨_, ⟨h1, by simpa using h2⟩, rfl⟩

theorem length_kSubsequences : ∀ (l : List α) (k : Nat), (kSubsequences k l).length = l.length.choose k := by
  intro l
  induction l with
  | nil => intro k; cases k <;> simp [kSubsequences]
  | cons a l ih =>
    intro k
    cases k with
    | zero => simp [kSubsequences]
    | succ k => simp [kSubsequences, ih, Nat.choose_succ_succ]

theorem sublist_range_iff (s : List Nat) (n : Nat) :
    s.Sublist (List.range n) ↔ s.Pairwise (· < ·) ∧ ∀ x ∈ s, x < n := by
  constructor
  · intro h
    exact ⟨(List.pairwise_lt_range (n := n)).sublist h, fun x hx => List.mem_range.1 (h.subset hx)⟩
  · rintro ⟨h1, h2⟩
    have : s.Subperm (List.range n) := by
      apply List.Nodup.subperm (h1.imp fun h => Nat.ne_of_lt h)
      intro x hx
      exact List.mem_range.2 (h2 x hx)
    obtain ⟨t, ht1, ht2⟩ := this
    have : t = s := by
      apply ht1.eq_of_pairwise (le := (· < ·)) (fun a b _ _ h1 h2 => absurd h1 (by omega))
      · exact (List.pairwise_lt_range (n := n)).sublist ht2
      · exact h1
    rw [← this]
    exact ht2

/-- **C28** (combinations): for `k ≥ 1` the result lists exactly the increasing index vectors of length `k` below
`n`, in number `n choose k` (given that the external enumerator lists `k`-subsequences). -/
theorem C28_combinations_exact (k n : Nat) (hk : 1 ≤ k) :
    (∀ s, s ∈ allCombinations k n ↔ s.length = k ∧ s.Pairwise (· < ·) ∧ ∀ x ∈ s, x < n) ∧
    (allCombinations k n).length = n.choose k := by
  unfold allCombinations
  by_cases h : k > n
  · rw [if_pos h]
    refine ⟨fun s => ?_, by simp [Nat.choose_eq_zero_of_lt h]⟩
    simp only [List.not_mem_nil, false_iff]
    rintro ⟨h1, h2, h3⟩
    have := ((sublist_range_iff s n).2 ⟨h2, h3⟩).length_le
    rw [List.length_range] at this
    omega
  · rw [if_neg h, if_neg (by omega)]
    refine ⟨fun s => ?_, by rw [length_kSubsequences, List.length_range]⟩
    rw [mem_kSubsequences, sublist_range_iff]
    tauto

theorem kSubsequences_sorted (l : List Nat) (h : l.Pairwise (· < ·)) :
    ∀ k, (kSubsequences k l).Pairwise (List.Lex (· < ·)) := by
  induction l with
  | nil => intro k; cases k <;> simp [kSubsequences]
  | cons a l ih =>
    intro k
    cases k with
    | zero => simp [kSubsequences]
    | succ k =>
      have hl := (List.pairwise_cons.1 h).2
      simp only [kSubsequences]
      rw [List.pairwise_append]
      refine ⟨?_, ih hl (k + 1), ?_⟩
      · rw [List.pairwise_map]
        exact (ih hl k).imp fun hab => .cons hab
      · intro x hx y hy
        rw [List.mem_map] at hx
        obtain ⟨t, _, rfl⟩ := hx
        obtain ⟨hy1, hy2⟩ := mem_kSubsequences.1 hy
        cases y with
        | nil => simp at hy2
        | cons b y => exact .rel ((List.pairwise_cons.1 h).1 b (hy1.subset (by simp)))

/-- **C28** (combinations, order): they are listed in strictly increasing lexicographic order, hence each once. -/
theorem C28_combinations_sorted (k n : Nat) : (allCombinations k n).Pairwise (List.Lex (· < ·)) := by
  unfold allCombinations
  split
  · exact .nil
  · split
    · exact .nil
    · exact kSubsequences_sorted _ List.pairwise_lt_range k

/-- **C28** (finding): for `k = 0` there is one combination (the empty one), but none is returned. -/
theorem C28_combinations_zero (n : Nat) : (allCombinations 0 n).length ≠ n.choose 0 := by
  simp [allCombinations]

example : allCombinations 2 4 = [[0, 1], [0, 2], [0, 3], [1, 2], [1, 3], [2, 3]] := by decide

end Verif.Iter
