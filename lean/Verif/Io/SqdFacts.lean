import Verif.Io.SqdSpec
import Verif.Defects.ReaderProps
import Mathlib.Tactic.SplitIfs

/-!
# Facts about reading SQD files
-/
namespace Verif.Sqd

open Verif.Coordinates Verif.Cells Verif.Defects

/-! ## Numbers -/

theorem numeral_of_b {n : Nat} {ds : List Char} (h : NumeralB n ds) : Numeral n ds := by
  obtain ⟨hne, hd, rfl⟩ := h
  have key : ∀ l : List Char, l.all isDig = true →
      ∃ digits : List Nat, (∀ d ∈ digits, d < 10) ∧ l = digits.map Nat.digitChar := by
    intro l
    induction l with
    | nil => exact fun _ => ⟨[], by simp, rfl⟩
    | cons c l ih =>
      intro h
      rw [List.all_cons, Bool.and_eq_true] at h
      obtain ⟨d, hd, rfl⟩ := (isDig_iff c).1 h.1
      obtain ⟨l', h1, rfl⟩ := ih h.2
      exact ⟨d :: l', by simpa using ⟨hd, h1⟩, rfl⟩
  obtain ⟨l, hl, rfl⟩ := key ds hd
  have hn : Numeral (Nat.ofDigits 10 l.reverse) (l.map Nat.digitChar) := ⟨l, by simpa using hne, hl, rfl, rfl⟩
  rwa [(numeral_b hn).2.2]

theorem sign_not_ws : isWs '-' = false ∧ isWs '+' = false ∧ isDig '-' = false ∧ isDig '+' = false := by decide

theorem dropWhile_prefix {p : Char → Bool} (w r : Text) (hw : w.all p = true) (hr : ∀ c, r.head? = some c → p c = false) :
    (w ++ r).dropWhile p = r := by
  induction w with
  | nil =>
    cases r with
    | nil => rfl
    | cons c r => simp [List.dropWhile_cons, hr c rfl]
  | cons a w ih =>
    rw [List.all_cons, Bool.and_eq_true] at hw
    simp [List.dropWhile_cons, hw.1, ih hw.2]

theorem takeWhile_prefix {p : Char → Bool} (w r : Text) (hw : w.all p = true) (hr : ∀ c, r.head? = some c → p c = false) :
    (w ++ r).takeWhile p = w := by
  induction w with
  | nil =>
    cases r with
    | nil => rfl
    | cons c r => simp [List.takeWhile_cons, hr c rfl]
  | cons a w ih =>
    rw [List.all_cons, Bool.and_eq_true] at hw
    simp [List.takeWhile_cons, hw.1, ih hw.2]

theorem head_dropWhile (p : Char → Bool) (s : Text) (c : Char) (h : (s.dropWhile p).head? = some c) : p c = false := by
  induction s with
  | nil => simp at h
  | cons a s ih =>
    rw [List.dropWhile_cons] at h
    split_ifs at h with ha
    · exact ih h
    · simp only [List.head?_cons, Option.some.injEq] at h
      subst h
      simpa using ha

theorem all_takeWhile (p : Char → Bool) (s : Text) : (s.takeWhile p).all p = true := by
  induction s with
  | nil => rfl
  | cons a s ih =>
    rw [List.takeWhile_cons]
    split_ifs with ha
    · rw [List.all_cons, ha, ih]; rfl
    · rfl

theorem numeral_head {k : Nat} {ds : Text} (h : Numeral k ds) : ∃ c t, ds = c :: t ∧ isDig c = true := by
  obtain ⟨h1, h2, -⟩ := numeral_b h
  obtain ⟨c, t, rfl⟩ := List.exists_cons_of_ne_nil h1
  rw [List.all_cons, Bool.and_eq_true] at h2
  exact ⟨c, t, rfl, h2.1⟩

theorem stoll_of {i : Int} {s : Text} (h : IntText i s) : stoll s = some i := by
  obtain ⟨w, sign, ds, rest, k, rfl, hw, hn, hrest, hs, lo, hi⟩ := h
  have hb := numeral_b hn
  obtain ⟨c0, t0, hds, hc0⟩ := numeral_head hn
  have hnws : isWs c0 = false := by
    by_contra hh
    rw [Bool.not_eq_false] at hh
    rw [ws_not_dig hh] at hc0
    cases hc0
  have hnm : c0 ≠ '-' ∧ c0 ≠ '+' := by
    constructor <;> (rintro rfl; revert hc0; decide)
  have htake : (ds ++ rest).takeWhile isDig = ds :=
    takeWhile_prefix ds rest hb.2.1 (fun c hc => by
      have := hrest c hc
      rw [← isDig_iff] at this
      simpa using this)
  have e1 : (w ++ sign ++ ds ++ rest).dropWhile isWs = sign ++ ds ++ rest := by
    rw [List.append_assoc w, List.append_assoc w]
    refine dropWhile_prefix w _ (white_b hw) fun c hc => ?_
    rcases hs with ⟨rfl, -⟩ | ⟨rfl, -⟩ | ⟨rfl, -⟩
    · rw [hds] at hc
      simp only [List.nil_append, List.cons_append, List.head?_cons, Option.some.injEq] at hc
      rw [← hc]; exact hnws
    · simp only [List.cons_append, List.head?_cons, Option.some.injEq] at hc
      rw [← hc]; rfl
    · simp only [List.cons_append, List.head?_cons, Option.some.injEq] at hc
      rw [← hc]; rfl
  unfold stoll
  rw [e1]
  dsimp only
  have hlim : (-9223372036854775808 : Int) ≤ i ∧ i ≤ 9223372036854775807 := by
    constructor <;> omega
  rcases hs with ⟨rfl, rfl⟩ | ⟨rfl, rfl⟩ | ⟨rfl, rfl⟩
  · have hh : (ds ++ rest).head? = some c0 := by rw [hds]; rfl
    rw [List.nil_append, hh]
    simp only [Option.some.injEq, hnm.1, hnm.2, or_self, if_false]
    rw [htake, if_neg hb.1, hb.2.2]
    rw [if_pos hlim]
  · rw [show (['+'] ++ ds ++ rest).head? = some '+' from rfl, show (['+'] ++ ds ++ rest).tail = ds ++ rest from rfl]
    simp only [or_true, if_true]
    rw [htake, if_neg hb.1, hb.2.2]
    simp only [Option.some.injEq, show ¬ ('+' = '-') by decide, decide_false, if_false, Bool.false_eq_true]
    rw [if_pos hlim]
  · rw [show (['-'] ++ ds ++ rest).head? = some '-' from rfl, show (['-'] ++ ds ++ rest).tail = ds ++ rest from rfl]
    simp only [true_or, if_true]
    rw [htake, if_neg hb.1, hb.2.2]
    rw [if_pos hlim]

theorem of_stoll {i : Int} {s : Text} (h : stoll s = some i) : IntText i s := by
  unfold stoll at h
  dsimp only at h
  have es : s = s.takeWhile isWs ++ s.dropWhile isWs := (List.takeWhile_append_dropWhile).symm
  have hw : ∀ c ∈ s.takeWhile isWs, White c := fun c hc => (isWs_iff c).1 (List.all_eq_true.1 (all_takeWhile isWs s) c hc)
  generalize s.dropWhile isWs = t at *
  generalize s.takeWhile isWs = w at *
  have split : ∀ u : Text, u = u.takeWhile isDig ++ u.dropWhile isDig := fun u => (List.takeWhile_append_dropWhile).symm
  have fin : ∀ u : Text, ¬ u.takeWhile isDig = [] → Numeral (value (u.takeWhile isDig)) (u.takeWhile isDig) :=
    fun u hu => numeral_of_b ⟨hu, all_takeWhile _ _, rfl⟩
  have stop : ∀ u : Text, ∀ c, (u.dropWhile isDig).head? = some c → ¬ Digit c := by
    intro u c hc hd
    have := head_dropWhile _ _ _ hc
    rw [(isDig_iff c).2 hd] at this
    cases this
  by_cases h1 : t.head? = some '-'
  · obtain ⟨r, rfl⟩ : ∃ r, t = '-' :: r := by
      cases t with
      | nil => simp at h1
      | cons a r => simp only [List.head?_cons, Option.some.injEq] at h1; exact ⟨r, by rw [h1]⟩
    simp only [List.head?_cons, true_or, if_true, decide_true, List.tail_cons] at h
    by_cases h2 : r.takeWhile isDig = []
    · rw [if_pos h2] at h; cases h
    · rw [if_neg h2] at h
      split_ifs at h with h3
      simp only [Option.some.injEq] at h
      refine ⟨w, ['-'], r.takeWhile isDig, r.dropWhile isDig, _, ?_, hw, fin r h2, stop r, .inr (.inr ⟨rfl, h.symm⟩), by omega, by omega⟩
      rw [es, List.append_assoc, ← split r]
      simp
  · by_cases h4 : t.head? = some '+'
    · obtain ⟨r, rfl⟩ : ∃ r, t = '+' :: r := by
        cases t with
        | nil => simp at h4
        | cons a r => simp only [List.head?_cons, Option.some.injEq] at h4; exact ⟨r, by rw [h4]⟩
      simp only [List.head?_cons, or_true, if_true, List.tail_cons, Option.some.injEq, show ¬ ('+' = '-') by decide,
        decide_false, Bool.false_eq_true, if_false] at h
      by_cases h2 : r.takeWhile isDig = []
      · rw [if_pos h2] at h; cases h
      · rw [if_neg h2] at h
        split_ifs at h with h3
        simp only [Option.some.injEq] at h
        refine ⟨w, ['+'], r.takeWhile isDig, r.dropWhile isDig, _, ?_, hw, fin r h2, stop r, .inr (.inl ⟨rfl, h.symm⟩), by omega, by omega⟩
        rw [es, List.append_assoc, ← split r]
        simp
    · simp only [h1, h4, or_self, if_false, decide_false, Bool.false_eq_true] at h
      by_cases h2 : t.takeWhile isDig = []
      · rw [if_pos h2] at h; cases h
      · rw [if_neg h2] at h
        split_ifs at h with h3
        simp only [Option.some.injEq] at h
        refine ⟨w, [], t.takeWhile isDig, t.dropWhile isDig, _, ?_, hw, fin t h2, stop t, .inl ⟨rfl, h.symm⟩, by omega, by omega⟩
        rw [es, List.append_assoc, ← split t]
        simp

theorem stoll_iff (i : Int) (s : Text) : stoll s = some i ↔ IntText i s := ⟨of_stoll, stoll_of⟩

theorem numeral_toDigits (n : Nat) : Numeral n (Nat.toDigits 10 n) := by
  refine numeral_of_b ⟨Nat.toDigits_ne_nil, ?_, ?_⟩
  · rw [List.all_eq_true]
    intro c hc
    have := Nat.isDigit_of_mem_toDigits (by omega) (by omega) hc
    simp only [Char.isDigit, Bool.and_eq_true, decide_eq_true_eq] at this
    simp only [isDig, Bool.and_eq_true, decide_eq_true_eq]
    exact this
  · have h := Nat.ofDigitChars_toDigits (b := 10) (n := n) (by omega) (by omega)
    unfold Nat.ofDigitChars at h
    exact h

theorem show_text (i : Int) (h1 : -2 ^ 63 ≤ i) (h2 : i < 2 ^ 63) : IntText i (showInt i) := by
  unfold showInt
  by_cases hi : i < 0
  · rw [if_pos hi]
    exact ⟨[], ['-'], Nat.toDigits 10 i.natAbs, [], i.natAbs, by simp, by simp, numeral_toDigits _, by simp, .inr (.inr ⟨rfl, by omega⟩), h1, h2⟩
  · rw [if_neg hi]
    exact ⟨[], [], Nat.toDigits 10 i.natAbs, [], i.natAbs, by simp, by simp, numeral_toDigits _, by simp, .inl ⟨rfl, by omega⟩, h1, h2⟩

end Verif.Sqd
