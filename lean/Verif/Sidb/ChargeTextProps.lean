import Verif.Sidb.ChargeText
import Mathlib.Data.List.Basic

/-!
# C109: charge states as signs and as text

## Specification
-/
namespace Verif.ChargeText

/-- The charge a character stands for. -/
def charge (c : Char) : Option Int := if c = '-' then some (-1) else if c = '0' then some 0 else if c = '+' then some 1 else none

/-! ## Theorems -/

/-- C109. The text has, in order, one character for each SiDB, which stands for its charge; empty cells are left out. -/
theorem C109_text (l : List State) :
    (text l).map charge = (l.filter (fun s => decide (s ≠ .none))).map (fun s => some (toSign s)) := by
  induction l with
  | nil => rfl
  | cons s l ih => cases s <;> simp [text, charge, toSign, ih]

/-- C109. Configurations of SiDBs with the same text are equal. -/
theorem C109_text_injective (l m : List State) (hl : State.none ∉ l) (hm : State.none ∉ m) (h : text l = text m) : l = m := by
  induction l generalizing m with
  | nil =>
    cases m with
    | nil => rfl
    | cons s m => cases s <;> simp_all [text]
  | cons s l ih =>
    cases m with
    | nil => cases s <;> simp_all [text]
    | cons t m =>
      have hl' : State.none ∉ l := fun h => hl (List.mem_cons_of_mem _ h)
      have hm' : State.none ∉ m := fun h => hm (List.mem_cons_of_mem _ h)
      cases s <;> cases t <;> simp [text] at h hl hm ⊢ <;> exact ih m hl' hm' h

/-- C109. Signs and charge states correspond to each other; no other number is the sign of a charge state. -/
theorem C109_sign (s : State) (hs : s ≠ .none) (x : Int) : ofSign x = s ↔ toSign s = x := by
  unfold ofSign
  cases s <;> simp [toSign] at hs ⊢ <;> split_ifs <;> simp <;> omega

/-- C109. For base two the states are those of negative and neutral charge, for base three all three. -/
theorem C109_base (base : Nat) (hb : base = 2 ∨ base = 3) (s : State) :
    s ∈ statesForBase base ↔ s ≠ .none ∧ (toSign s + 1 < base) := by
  rcases hb with rfl | rfl <;> cases s <;> decide

/-- C109. The state of empty cells is not recovered from its sign. -/
theorem C109_false_none : ofSign (toSign .none) = .neutral := by decide

/-! ## Examples -/

example : text [.negative, .positive, .neutral, .none, .positive] = ['-', '+', '0', '+'] := by decide +kernel

example : State.none ∉ [State.negative, .positive] := by decide

end Verif.ChargeText
