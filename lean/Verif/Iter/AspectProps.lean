import Verif.Iter.Model
import Mathlib.Tactic.Ring

/-! # C27: the aspect ratio iterator -/
namespace Verif.Iter

theorem mem_factorsAt {num i x y : Nat} (hi : 0 < i) (hn : 0 < num) :
    (x, y) ∈ factorsAt num i ↔ (x + 1) * (y + 1) = num ∧ (x + 1 = i ∨ y + 1 = i) := by
  unfold factorsAt
  by_cases hd : num % i = 0
  · obtain ⟨k, rfl⟩ := Nat.dvd_of_mod_eq_zero hd
    have hk : 0 < k := Nat.pos_of_mul_pos_left hn
    have hq : i * k / i = k := Nat.mul_div_cancel_left k hi
    obtain ⟨a, rfl⟩ : ∃ a, i = a + 1 := ⟨i - 1, by omega⟩
    obtain ⟨b, rfl⟩ : ∃ b, k = b + 1 := ⟨k - 1, by omega⟩
    rw [if_pos hd]
    simp only [hq, Nat.add_sub_cancel]
    have key : (x + 1) * (y + 1) = (a + 1) * (b + 1) ∧ (x + 1 = a + 1 ∨ y + 1 = a + 1) ↔
        (x = a ∧ y = b) ∨ (x = b ∧ y = a) := by
      constructor
      · rintro ⟨h, h1 | h1⟩
        · have : x = a := by omega
          subst this
          have := Nat.eq_of_mul_eq_mul_left (by omega : 0 < x + 1) h
          left; omega
        · have : y = a := by omega
          subst this
          rw [Nat.mul_comm] at h
          have := Nat.eq_of_mul_eq_mul_left (by omega : 0 < y + 1) h
          right; omega
      · rintro (⟨rfl, rfl⟩ | ⟨rfl, rfl⟩)
        · exact ⟨rfl, Or.inl rfl⟩
        · exact ⟨Nat.mul_comm _ _, Or.inr rfl⟩
    rw [key]
    split
    · simp
    · rename_i h
      have : a = b := by simpa using h
      subst this
      simp
  · rw [if_neg hd]
    simp only [List.not_mem_nil, false_iff, not_and]
    rintro rfl (rfl | rfl)
    · exact hd (by simp)
    · exact hd (by simp)

theorem mem_factorizeFrom {num x y : Nat} (hn : 0 < num) (i : Nat) (hi : 0 < i) :
    (x, y) ∈ factorizeFrom num i ↔ (x + 1) * (y + 1) = num ∧ i ≤ x + 1 ∧ i ≤ y + 1 := by
  induction i using factorizeFrom.induct num with
  | case1 i h =>
    rw [factorizeFrom, if_pos h]
    have h' : num < i * i := by omega
    simp only [List.not_mem_nil, false_iff, not_and]
    intro h1 h2 h3
    have := Nat.mul_le_mul h2 h3
    omega
  | case2 i h ih =>
    rw [factorizeFrom, if_neg h, List.mem_append, mem_factorsAt hi hn, ih (by omega)]
    have h' : i * i ≤ num := by omega
    constructor
    · rintro (⟨h1, h2⟩ | ⟨h1, h2, h3⟩)
      · refine ⟨h1, ?_⟩
        rcases h2 with h2 | h2
        · refine ⟨by omega, ?_⟩
          by_contra hc
          have : (x + 1) * (y + 1) < i * i := by rw [h2]; exact Nat.mul_lt_mul_of_pos_left (by omega) hi
          omega
        · refine ⟨?_, by omega⟩
          by_contra hc
          have : (x + 1) * (y + 1) < i * i := by rw [h2]; exact Nat.mul_lt_mul_of_pos_right (by omega) hi
          omega
      · exact ⟨h1, by omega, by omega⟩
    · rintro ⟨h1, h2, h3⟩
      by_cases e : x + 1 = i ∨ y + 1 = i
      · exact Or.inl ⟨h1, e⟩
      · exact Or.inr ⟨h1, by omega, by omega⟩

theorem nodup_factorizeFrom {num : Nat} (hn : 0 < num) (i : Nat) (hi : 0 < i) : (factorizeFrom num i).Nodup := by
  induction i using factorizeFrom.induct num with
  | case1 i h => rw [factorizeFrom, if_pos h]; exact List.nodup_nil
  | case2 i h ih =>
    rw [factorizeFrom, if_neg h, List.nodup_append]
    refine ⟨?_, ih (by omega), ?_⟩
    · unfold factorsAt
      split
      · dsimp only
        split
        · rename_i hne
          simp only [List.nodup_cons, List.mem_singleton, Prod.mk.injEq, List.not_mem_nil, not_false_eq_true,
            List.nodup_nil, and_self, and_true]
          intro hc
          exact hne hc.1
        · simp
      · exact List.nodup_nil
    · rintro ⟨x, y⟩ ha ⟨x', y'⟩ hb heq
      rw [← heq] at hb
      rw [mem_factorsAt hi hn] at ha
      rw [mem_factorizeFrom hn _ (by omega)] at hb
      omega

/-- **C27** (all shapes): the extents listed for `num` tiles are exactly the zero-based `(x, y)` with
`(x + 1) * (y + 1) = num`, each once. -/
theorem C27_factorize_exact (num : Nat) (hn : 0 < num) :
    (∀ x y, (x, y) ∈ factorize num ↔ (x + 1) * (y + 1) = num) ∧ (factorize num).Nodup := by
  refine ⟨fun x y => ?_, nodup_factorizeFrom hn 1 (by omega)⟩
  rw [factorize, mem_factorizeFrom hn 1 (by omega)]
  exact ⟨fun h => h.1, fun h => ⟨h, by omega, by omega⟩⟩

example : factorize 12 = [(0, 11), (11, 0), (1, 5), (5, 1), (2, 3), (3, 2)] := by
  simp [factorize, factorizeFrom, factorsAt]

theorem factorize_ne_nil (num : Nat) (hn : 0 < num) : factorize num ≠ [] := by
  have : (0, num - 1) ∈ factorize num := ((C27_factorize_exact num hn).1 _ _).2 (by omega)
  exact List.ne_nil_of_mem this

theorem arNext_eq (f num : Nat) : arNext (f + 1) num = ⟨num + 1, factorize (num + 1), 0⟩ := by
  have h := factorize_ne_nil (num + 1) (by omega)
  simp only [arNext]
  rw [if_neg]
  simpa using h

/-- **C27** (order of enumeration): dereferencing and incrementing an iterator constructed for `n` yields, one after
the other and with no bound, the extents of `max n 1`, then of the next tile count, and so on: `seen k` lists the
first positions up to and including all shapes with fewer than `max n 1 + k` tiles. -/
theorem C27_sequence (n k : Nat) :
    ∃ m, (List.range m).map (fun j => ((ARIt.inc^[j] (ARIt.mk' n)).num, (ARIt.inc^[j] (ARIt.mk' n)).deref)) =
        (List.range k).flatMap (fun t => (factorize (max n 1 + t)).map (fun e => (max n 1 + t, some e))) ∧
      ARIt.inc^[m] (ARIt.mk' n) = ⟨max n 1 + k, factorize (max n 1 + k), 0⟩ := by
  have h0 : ARIt.mk' n = ⟨max n 1, factorize (max n 1), 0⟩ := by
    simp only [ARIt.mk', arNext_eq]
    have : (if n ≠ 0 then n - 1 else 0) + 1 = max n 1 := by split <;> omega
    rw [this]
  -- walking through one factor list
  have walk : ∀ (N : Nat) (_ : 0 < N) (j : Nat), j < (factorize N).length →
      ARIt.inc^[j] ⟨N, factorize N, 0⟩ = ⟨N, factorize N, j⟩ := by
    intro N hN j
    induction j with
    | zero => intro _; rfl
    | succ j ih =>
      intro hj
      rw [Function.iterate_succ_apply', ih (by omega)]
      simp only [ARIt.inc]
      rw [if_neg (by omega)]
  have wrap : ∀ (N : Nat) (_ : 0 < N),
      ARIt.inc^[(factorize N).length] ⟨N, factorize N, 0⟩ = ⟨N + 1, factorize (N + 1), 0⟩ := by
    intro N hN
    have hl : 0 < (factorize N).length := List.length_pos_iff.2 (factorize_ne_nil N hN)
    obtain ⟨l, hl'⟩ : ∃ l, (factorize N).length = l + 1 := ⟨(factorize N).length - 1, by omega⟩
    rw [hl', Function.iterate_succ_apply', walk N hN l (by omega)]
    simp only [ARIt.inc]
    rw [if_pos hl'.symm, arNext_eq]
  induction k with
  | zero => exact ⟨0, by simp, by rw [h0]; rfl⟩
  | succ k ih =>
    obtain ⟨m, h1, h2⟩ := ih
    have hN : 0 < max n 1 + k := by omega
    refine ⟨m + (factorize (max n 1 + k)).length, ?_, ?_⟩
    · rw [List.range_add, List.map_append, h1, List.range_succ, List.flatMap_append]
      congr 1
      simp only [List.flatMap_cons, List.flatMap_nil, List.append_nil, List.map_map]
      apply List.ext_getElem
      · simp
      · intro j hj1 hj2
        have hj : j < (factorize (max n 1 + k)).length := by simpa using hj1
        simp only [List.getElem_map, List.getElem_range, Function.comp_apply]
        rw [Nat.add_comm m j, Function.iterate_add_apply, h2, walk _ hN j hj]
        simp [ARIt.deref, List.getElem?_eq_getElem hj]
    · rw [Nat.add_comm m, Function.iterate_add_apply, h2, wrap _ hN]
      rfl

example : (List.range 5).map (fun j => (ARIt.inc^[j] (ARIt.mk' 2)).deref) =
    [some (0, 1), some (1, 0), some (0, 2), some (2, 0), some (0, 3)] := by
  simp [List.range, List.range.loop, ARIt.mk', arNext, ARIt.inc, ARIt.deref, factorize, factorizeFrom, factorsAt]

/-- **C27** (finding): `<=` between iterators holds in both directions although the iterators stand at different
shapes of the same tile count, so `<=` is not antisymmetric. -/
theorem C27_le_not_antisymmetric :
    ∃ a b : ARIt, a = ARIt.mk' 2 ∧ b = a.inc ∧ a.le b = true ∧ b.le a = true ∧ a.deref ≠ b.deref := by
  refine ⟨_, _, rfl, rfl, ?_⟩
  simp [ARIt.mk', arNext, ARIt.inc, ARIt.deref, ARIt.le, factorize, factorizeFrom, factorsAt]

end Verif.Iter
