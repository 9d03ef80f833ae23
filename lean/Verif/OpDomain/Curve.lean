import Verif.OpDomain.SurfaceRun
import Mathlib.Logic.Function.Iterate

/-! # Contour tracing in two dimensions: lemmas -/
namespace Verif.OpDomain

open Verif.Iter

/-! ## The next point in clockwise order -/

theorem nextClockwise_last (b : SP) (k : Nat) (pre : List SP) : nextClockwise b (k + 1) (pre ++ [b]) = (pre ++ [b]).head? := by
  simp [nextClockwise]

theorem nextClockwise_mid (b : SP) (pre post : List SP) (h1 : b ∉ pre) (h2 : b ∉ post) (hne : post ≠ []) (k : Nat) (hk : pre.length + 1 < k) :
    nextClockwise b k (pre ++ b :: post) = post.head? := by
  induction pre generalizing post k with
  | nil =>
    obtain ⟨k, rfl⟩ : ∃ k', k = k' + 2 := ⟨k - 2, by simp at hk; omega⟩
    have hl : ([] ++ b :: post).getLast? ≠ some b := by
      intro e
      cases post with
      | nil => exact hne rfl
      | cons c post =>
        rw [List.nil_append, List.getLast?_cons_cons] at e
        exact h2 (List.mem_of_getLast? e)
    rw [nextClockwise, if_neg hl]
    show nextClockwise b (k + 1) (post ++ [b]) = _
    rw [nextClockwise_last]
    cases post with
    | nil => exact absurd rfl hne
    | cons c post => rfl
  | cons a pre ih =>
    obtain ⟨k, rfl⟩ : ∃ k', k = k' + 1 := ⟨k - 1, by simp at hk; omega⟩
    have hl : (a :: pre ++ b :: post).getLast? ≠ some b := by
      intro e
      rw [List.getLast?_append] at e
      cases post with
      | nil => exact hne rfl
      | cons c post =>
        rw [List.getLast?_cons_cons] at e
        cases h : (c :: post).getLast? with
        | none => simp at h
        | some d =>
          rw [h] at e
          simp only [Option.some_or, Option.some.injEq] at e
          subst e
          exact h2 (List.mem_of_getLast? h)
    rw [nextClockwise, if_neg hl]
    have e : (a :: pre ++ b :: post).tail ++ (a :: pre ++ b :: post).head?.toList = pre ++ b :: (post ++ [a]) := by simp
    rw [e, ih (post ++ [a]) (fun h => h1 (by simp [h])) ?_ (by simp) k (by simp at hk; omega)]
    · cases post with
      | nil => exact absurd rfl hne
      | cons c post => rfl
    · intro h
      rcases List.mem_append.1 h with h | h
      · exact h2 h
      · simp only [List.mem_singleton] at h
        exact h1 (by simp [h])

/-- The next point is the one after the backtrack point in cyclic order. -/
theorem nextClockwise_get {l : List SP} (hn : l.Nodup) {i : Nat} (hi : i < l.length) :
    nextClockwise l[i] l.length l = l[(i + 1) % l.length]? := by
  have hsplit : l = l.take i ++ l[i] :: l.drop (i + 1) := by simp
  have hn' := hn
  rw [hsplit, List.nodup_append, List.nodup_cons] at hn'
  obtain ⟨-, ⟨hd, -⟩, hdis⟩ := hn'
  have ht : l[i] ∉ l.take i := fun h => hdis _ h _ List.mem_cons_self rfl
  rcases Nat.lt_or_ge (i + 1) l.length with h | h
  · have e := nextClockwise_mid l[i] (l.take i) (l.drop (i + 1)) ht hd (by simp; omega) l.length (by simp; omega)
    rw [← hsplit] at e
    rw [e, Nat.mod_eq_of_lt h, List.head?_drop]
  · have hd0 : l.drop (i + 1) = [] := List.drop_eq_nil_of_le h
    have e : i + 1 = l.length := by omega
    rw [e, Nat.mod_self]
    rw [hd0] at hsplit
    obtain ⟨k, hk⟩ : ∃ k, l.length = k + 1 := ⟨l.length - 1, by omega⟩
    have e2 := nextClockwise_last l[i] k (l.take i)
    rw [← hsplit, ← hk] at e2
    rw [e2, List.head?_eq_getElem?]

theorem succ_mod_inj {n i j : Nat} (hi : i < n) (hj : j < n) (h : (i + 1) % n = (j + 1) % n) : i = j := by
  rcases Nat.lt_or_ge (i + 1) n with h1 | h1 <;> rcases Nat.lt_or_ge (j + 1) n with h2 | h2
  · rw [Nat.mod_eq_of_lt h1, Nat.mod_eq_of_lt h2] at h; omega
  · rw [Nat.mod_eq_of_lt h1, show j + 1 = n by omega, Nat.mod_self] at h; omega
  · rw [Nat.mod_eq_of_lt h2, show i + 1 = n by omega, Nat.mod_self] at h; omega
  · omega

theorem nextClockwise_inj {l : List SP} (hn : l.Nodup) {a b : SP} (ha : a ∈ l) (hb : b ∈ l)
    (e : nextClockwise a l.length l = nextClockwise b l.length l) : a = b := by
  obtain ⟨i, hi, rfl⟩ := List.getElem_of_mem ha
  obtain ⟨j, hj, rfl⟩ := List.getElem_of_mem hb
  rw [nextClockwise_get hn hi, nextClockwise_get hn hj] at e
  have h1 : (i + 1) % l.length < l.length := Nat.mod_lt _ (by omega)
  have h2 : (j + 1) % l.length < l.length := Nat.mod_lt _ (by omega)
  rw [List.getElem?_eq_getElem h1, List.getElem?_eq_getElem h2, Option.some.injEq] at e
  have := succ_mod_inj hi hj ((List.Nodup.getElem_inj_iff hn).1 e)
  subst this
  rfl

theorem nextClockwise_mem {l : List SP} (hn : l.Nodup) {a : SP} (ha : a ∈ l) : ∃ n ∈ l, nextClockwise a l.length l = some n := by
  obtain ⟨i, hi, rfl⟩ := List.getElem_of_mem ha
  have h1 : (i + 1) % l.length < l.length := Nat.mod_lt _ (by omega)
  exact ⟨l[(i + 1) % l.length], List.getElem_mem h1, by rw [nextClockwise_get hn hi, List.getElem?_eq_getElem h1]⟩

/-! ## The neighbourhood in two dimensions -/

theorem inGrid2 {rs : List Range} (hl : rs.length = 2) {p : SP} (hp : InGrid rs p) :
    ∃ x y, p = [x, y] ∧ x < (sizes rs).getD 0 0 ∧ y < (sizes rs).getD 1 0 := by
  match rs, hl with
  | [r, s], _ =>
    cases hp with
    | cons h1 h2 =>
      cases h2 with
      | cons h2 h3 =>
        cases h3
        exact ⟨_, _, rfl, h1, h2⟩

theorem inGrid2_iff {rs : List Range} (hl : rs.length = 2) {x y : Nat} :
    InGrid rs [x, y] ↔ x < (sizes rs).getD 0 0 ∧ y < (sizes rs).getD 1 0 := by
  match rs, hl with
  | [r, s], _ =>
    constructor
    · intro h
      obtain ⟨x', y', e, h1, h2⟩ := inGrid2 rfl h
      simp only [List.cons.injEq, and_true] at e
      rw [e.1, e.2]
      exact ⟨h1, h2⟩
    · rintro ⟨h1, h2⟩
      exact List.Forall₂.cons h1 (List.Forall₂.cons h2 List.Forall₂.nil)

theorem near2 {x y a b : Nat} : Near [x, y] [a, b] ↔ ¬ (x = a ∧ y = b) ∧ (x ≤ a + 1 ∧ a ≤ x + 1) ∧ (y ≤ b + 1 ∧ b ≤ y + 1) := by
  simp [Near]

theorem moore2_eq (w h x y : Nat) : moore2 w h x y =
    (if x + 1 < w then [[x + 1, y]] else []) ++ (if x + 1 < w ∧ 0 < y then [[x + 1, y - 1]] else []) ++
    (if 0 < y then [[x, y - 1]] else []) ++ (if 0 < x ∧ 0 < y then [[x - 1, y - 1]] else []) ++
    (if 0 < x then [[x - 1, y]] else []) ++ (if 0 < x ∧ y + 1 < h then [[x - 1, y + 1]] else []) ++
    (if y + 1 < h then [[x, y + 1]] else []) ++ (if x + 1 < w ∧ y + 1 < h then [[x + 1, y + 1]] else []) := by
  have hx : (x ≠ if x > 0 then x - 1 else x) ↔ 0 < x := by split_ifs <;> omega
  have hw : (x ≠ if x + 1 < w then x + 1 else x) ↔ x + 1 < w := by split_ifs <;> omega
  have hy : (y ≠ if y > 0 then y - 1 else y) ↔ 0 < y := by split_ifs <;> omega
  have hh : (y ≠ if y + 1 < h then y + 1 else y) ↔ y + 1 < h := by split_ifs <;> omega
  unfold moore2
  dsimp only
  simp only [hx, hw, hy, hh]
  by_cases a1 : 0 < x <;> by_cases a2 : 0 < y <;> by_cases a3 : x + 1 < w <;> by_cases a4 : y + 1 < h <;>
    simp only [gt_iff_lt, a1, a2, a3, a4, if_true, if_false, and_true, and_false, false_and, true_and]

theorem mem_moore2 {w h x y a b : Nat} (hx : x < w) (hy : y < h) :
    [a, b] ∈ moore2 w h x y ↔ (a < w ∧ b < h) ∧ ¬ (x = a ∧ y = b) ∧ (x ≤ a + 1 ∧ a ≤ x + 1) ∧ (y ≤ b + 1 ∧ b ≤ y + 1) := by
  rw [moore2_eq]
  simp only [List.mem_append]
  have key : ∀ (c : Prop) [Decidable c] (u v : Nat), [a, b] ∈ (if c then [[u, v]] else []) ↔ c ∧ a = u ∧ b = v := by
    intro c _ u v
    split_ifs with hc <;> simp [hc]
  simp only [key]
  constructor
  · rintro (((((((h | h) | h) | h) | h) | h) | h) | h) <;> omega
  · rintro ⟨⟨h1, h2⟩, h3, ⟨h4, h5⟩, h6, h7⟩
    have ha : a = x + 1 ∨ a = x ∨ (0 < x ∧ a = x - 1) := by omega
    have hb : b = y + 1 ∨ b = y ∨ (0 < y ∧ b = y - 1) := by omega
    rcases ha with rfl | rfl | ⟨ha, rfl⟩ <;> rcases hb with rfl | rfl | ⟨hb, rfl⟩ <;> simp at * <;> omega

theorem moore2_form {w h x y : Nat} {q : SP} (hq : q ∈ moore2 w h x y) : ∃ a b, q = [a, b] := by
  rw [moore2_eq] at hq
  have key : ∀ (c : Prop) [Decidable c] (u v : Nat), q ∈ (if c then [[u, v]] else []) → ∃ a b, q = [a, b] := by
    intro c _ u v h
    split_ifs at h
    · exact ⟨u, v, by simpa using h⟩
    · simp at h
  simp only [List.mem_append] at hq
  rcases hq with ((((((hq | hq) | hq) | hq) | hq) | hq) | hq) | hq <;> exact key _ _ _ hq

theorem moore2_nodup (w h x y : Nat) : (moore2 w h x y).Nodup := by
  rw [moore2_eq]
  rcases x with _ | x <;> rcases y with _ | y
  · by_cases h3 : 1 < w <;> by_cases h4 : 1 < h <;> simp [h3, h4]
  · by_cases h3 : 1 < w <;> by_cases h4 : y + 1 + 1 < h <;> simp [h3, h4] <;> omega
  · by_cases h3 : x + 1 + 1 < w <;> by_cases h4 : 1 < h <;> simp [h3, h4] <;> omega
  · by_cases h3 : x + 1 + 1 < w <;> by_cases h4 : y + 1 + 1 < h <;> simp [h3, h4] <;> omega

theorem mem_moore2d {rs : List Range} (hl : rs.length = 2) {p q : SP} (hp : InGrid rs p) : q ∈ moore2d rs p ↔ InGrid rs q ∧ Near p q := by
  obtain ⟨x, y, rfl, hx, hy⟩ := inGrid2 hl hp
  unfold moore2d
  simp only [List.getD_cons_zero, List.getD_cons_succ]
  constructor
  · intro hq
    obtain ⟨a, b, rfl⟩ := moore2_form hq
    have := (mem_moore2 hx hy).1 hq
    exact ⟨(inGrid2_iff hl).2 this.1, near2.2 this.2⟩
  · rintro ⟨hq, hn⟩
    obtain ⟨a, b, rfl, h1, h2⟩ := inGrid2 hl hq
    exact (mem_moore2 hx hy).2 ⟨⟨h1, h2⟩, near2.1 hn⟩

theorem moore2d_nodup (rs : List Range) (p : SP) : (moore2d rs p).Nodup := moore2_nodup _ _ _ _

end Verif.OpDomain
