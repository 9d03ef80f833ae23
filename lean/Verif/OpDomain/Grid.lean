import Verif.OpDomain.Spec
import Verif.Iter.CombProps
import Mathlib.Tactic.Linarith
import Mathlib.Tactic.FieldSimp
import Mathlib.Tactic.SplitIfs
import Mathlib.Data.Rat.Defs
import Mathlib.Algebra.Order.Ring.Rat
import Mathlib.Algebra.Order.Field.Basic
import Mathlib.Data.Nat.Cast.Order.Ring

/-! # The grid of parameter points: lemmas -/
namespace Verif.OpDomain

open Verif.Iter

theorem roundAway_lt {a b : Rat} (h : a + 1 ≤ b) : roundAway a < roundAway b := by
  have f1 : ∀ x : Rat, 0 ≤ x → 0 ≤ (x + 1 / 2).floor := by
    intro x hx
    rw [Rat.le_floor_iff]; push_cast; linarith
  unfold roundAway
  by_cases ha : 0 ≤ a
  · have hb : 0 ≤ b := by linarith
    rw [if_pos ha, if_pos hb]
    have h1 : (a + 1 / 2).floor + 1 ≤ (b + 1 / 2).floor := by
      rw [Rat.le_floor_iff]
      have := Rat.floor_le (a + 1 / 2)
      push_cast; linarith
    omega
  · rw [if_neg ha]
    have ha' : a < 0 := by linarith
    by_cases hb : 0 ≤ b
    · rw [if_pos hb]
      have l1 := f1 (-a) (by linarith)
      have l2 := f1 b hb
      by_cases hh : (1 : Rat) / 2 ≤ b
      · have : (1 : Int) ≤ (b + 1 / 2).floor := by rw [Rat.le_floor_iff]; push_cast; linarith
        omega
      · have : (1 : Int) ≤ (-a + 1 / 2).floor := by rw [Rat.le_floor_iff]; push_cast; linarith
        omega
    · rw [if_neg hb]
      have h1 : (-b + 1 / 2).floor + 1 ≤ (-a + 1 / 2).floor := by
        rw [Rat.le_floor_iff]
        have := Rat.floor_le (-b + 1 / 2)
        push_cast; linarith
      omega

theorem margin_pos : 0 < margin := by unfold margin; norm_num

theorem quantize_lt {r : Range} (h : margin ≤ r.step) {i j : Nat} (hij : i < j) : quantize (value r i) < quantize (value r j) := by
  unfold quantize
  apply roundAway_lt
  rw [show value r i / margin + 1 = (value r i + margin) / margin by
    have := margin_pos.ne'; field_simp]
  apply div_le_div_of_nonneg_right _ margin_pos.le
  unfold value
  have h1 : (i : Rat) + 1 ≤ j := by exact_mod_cast hij
  have h2 : ((i : Rat) + 1) * r.step ≤ j * r.step :=
    mul_le_mul_of_nonneg_right h1 (margin_pos.le.trans h)
  linarith

theorem quantize_inj {r : Range} (h : margin ≤ r.step) {i j : Nat} (e : quantize (value r i) = quantize (value r j)) : i = j := by
  rcases Nat.lt_trichotomy i j with l | l | l
  · have := quantize_lt h l; omega
  · exact l
  · have := quantize_lt h l; omega

theorem value_lt {r : Range} (h : margin ≤ r.step) {i j : Nat} (hij : i < j) : value r i < value r j := by
  unfold value
  have h1 : (i : Rat) < j := by exact_mod_cast hij
  have h2 := mul_lt_mul_of_pos_right h1 (margin_pos.trans_le h)
  linarith

theorem toPP_length {rs : List Range} {p : SP} (h : p.length = rs.length) : (toPP rs p).length = rs.length := by
  simp [toPP, h]

theorem sameKey_inj {rs : List Range} (h : ∀ r ∈ rs, margin ≤ r.step) {p q : SP} (hp : p.length = rs.length) (hq : q.length = rs.length)
    (e : sameKey (toPP rs p) (toPP rs q) = true) : p = q := by
  unfold sameKey toPP at e
  rw [beq_iff_eq] at e
  induction rs generalizing p q with
  | nil => simp at hp hq; simp [hp, hq]
  | cons r rs ih =>
    cases p with
    | nil => simp at hp
    | cons a p =>
      cases q with
      | nil => simp at hq
      | cons b q =>
        simp only [List.zipWith_cons_cons, List.map_cons, List.cons.injEq] at e
        have := quantize_inj (h r (by simp)) e.1
        have := ih (fun r hr => h r (by simp [hr])) (by simpa using hp) (by simpa using hq) e.2
        simp [*]

theorem sameKey_refl (a : PP) : sameKey a a = true := by simp [sameKey]

theorem InGrid.length {rs : List Range} {p : SP} (h : InGrid rs p) : p.length = rs.length := h.length_eq

theorem mem_indices {rs : List Range} {p : SP} : p ∈ cartesianCombinations (indices rs) ↔ InGrid rs p := by
  rw [C28_cartesian_mem, InGrid, indices, List.forall₂_map_right_iff]
  simp

theorem indices_nodup (rs : List Range) : (cartesianCombinations (indices rs)).Nodup := by
  apply C28_cartesian_nodup
  intro s hs
  simp only [indices, List.mem_map] at hs
  obtain ⟨r, -, rfl⟩ := hs
  exact List.nodup_range

theorem toSP_toPP {rs : List Range} (h : ∀ r ∈ rs, margin ≤ r.step) {p : SP} (hp : InGrid rs p) : toSP rs (toPP rs p) = p := by
  unfold InGrid at hp
  induction hp with
  | nil => rfl
  | @cons i r p rs hi hp ih =>
    have ih := ih (fun r hr => h r (by simp [hr]))
    simp only [toSP, toPP, List.zipWith_cons_cons] at *
    rw [ih]
    congr 1
    have hr := h r (by simp)
    have hlen : (values r).length = numIndices r := by simp [values]
    rw [List.findIdx_eq (by rw [hlen]; exact hi)]
    simp only [values, List.getElem_map, List.getElem_range, decide_eq_true_eq, decide_eq_false_iff_not]
    refine ⟨lt_irrefl _, ?_⟩
    intro j hj
    exact not_not.2 (value_lt hr hj)

/-! ### The domain as a map -/

theorem contains_none {dom : Dom} {p : PP} : contains dom p = none ↔ ∀ e ∈ dom, sameKey e.1 p = false := by
  simp [contains]

theorem contains_isSome {dom : Dom} {p : PP} : (contains dom p).isSome = true ↔ ∃ e ∈ dom, sameKey e.1 p = true := by
  simp [contains]

/-! ### Neighbourhoods -/

theorem mooreDigits_some {ns : List Nat} {sp q : SP} {k : Nat} {c : Bool} (hl : sp.length = ns.length)
    (h : mooreDigits ns sp k = some (q, c)) :
    List.Forall₂ (fun i n => i < n) q ns ∧ List.Forall₂ (fun a b => a ≤ b + 1 ∧ b ≤ a + 1) sp q ∧ (c = true ↔ q = sp) := by
  induction ns generalizing sp q k c with
  | nil =>
    simp only [List.length_nil, List.length_eq_zero_iff] at hl
    subst hl
    simp only [mooreDigits, Option.some.injEq, Prod.mk.injEq] at h
    obtain ⟨rfl, rfl⟩ := h
    simp
  | cons n ns ih =>
    cases sp with
    | nil => simp at hl
    | cons s sp =>
      simp only [mooreDigits] at h
      split_ifs at h with hr
      rw [Option.map_eq_some_iff] at h
      obtain ⟨⟨q', c'⟩, h', e⟩ := h
      simp only [Prod.mk.injEq] at e
      obtain ⟨rfl, rfl⟩ := e
      obtain ⟨i1, i2, i3⟩ := ih (by simpa using hl) h'
      refine ⟨List.Forall₂.cons (by omega) i1, List.Forall₂.cons (by omega) i2, ?_⟩
      simp only [Bool.and_eq_true, decide_eq_true_eq, List.cons.injEq, i3]
      constructor
      · rintro ⟨h1, h2⟩; exact ⟨by omega, h2⟩
      · rintro ⟨h1, h2⟩; exact ⟨by omega, h2⟩

theorem mooreDigits_ex {ns : List Nat} {sp q : SP} (h1 : List.Forall₂ (fun i n => i < n) q ns)
    (h2 : List.Forall₂ (fun a b => a ≤ b + 1 ∧ b ≤ a + 1) sp q) :
    ∃ k, k < 3 ^ ns.length ∧ ∃ c, mooreDigits ns sp k = some (q, c) := by
  induction h1 generalizing sp with
  | nil => cases h2; exact ⟨0, by simp, true, rfl⟩
  | @cons i n q ns hi hq ih =>
    cases h2 with
    | @cons s _ sp _ hs h2 =>
      obtain ⟨k, hk, c, e⟩ := ih h2
      have hd : ∃ d : Nat, d < 3 ∧ (i : Int) = s + ((d : Int) - 1) := ⟨(i + 1 - s), by omega, by omega⟩
      obtain ⟨d, hd, he⟩ := hd
      refine ⟨d + 3 * k, by rw [List.length_cons, Nat.pow_succ]; omega, decide ((d : Int) - 1 = 0) && c, ?_⟩
      · have m1 : (d + 3 * k) % 3 = d := by omega
        have m2 : (d + 3 * k) / 3 = k := by omega
        simp only [mooreDigits, m1, m2]
        rw [if_neg (by omega), e]
        simp only [Option.map_some, Option.some.injEq, Prod.mk.injEq, List.cons.injEq, and_true]
        omega

theorem InGrid_iff {rs : List Range} {p : SP} : InGrid rs p ↔ List.Forall₂ (fun i n => i < n) p (sizes rs) := by
  rw [InGrid, sizes, List.forall₂_map_right_iff]

theorem mem_moore {rs : List Range} {p q : SP} (hp : InGrid rs p) : q ∈ moore (sizes rs) p ↔ InGrid rs q ∧ Near p q := by
  have hl : p.length = (sizes rs).length := by rw [hp.length]; simp [sizes]
  unfold moore
  simp only [List.mem_filterMap, List.mem_range]
  constructor
  · rintro ⟨k, hk, h⟩
    split at h
    case h_1 q' e =>
      simp only [Option.some.injEq] at h
      subst h
      obtain ⟨a, b, c⟩ := mooreDigits_some hl e
      exact ⟨InGrid_iff.2 a, fun e => by simpa using c.2 e.symm, b⟩
    case h_2 => simp at h
  · rintro ⟨h1, h2, h3⟩
    obtain ⟨k, hk, c, e⟩ := mooreDigits_ex (InGrid_iff.1 h1) h3
    refine ⟨k, hk, ?_⟩
    obtain ⟨-, -, hc⟩ := mooreDigits_some hl e
    have : c = false := by
      cases c
      · rfl
      · exact absurd (hc.1 rfl).symm h2
    subst this
    simp [e]

theorem Near.symm {p q : SP} (h : Near p q) : Near q p :=
  ⟨h.1.symm, by
    have := h.2.flip
    exact this.imp (fun a b h => ⟨h.2, h.1⟩)⟩

end Verif.OpDomain
