import Verif.Io.Magnets
import Verif.Io.QccProps
import Mathlib.Data.List.Perm.Basic

/-!
# C119: number of magnets

## Specification
-/
namespace Verif.Qcc

/-- The magnets of the layout are `others` that are no inverters, and `chains` chains of four inverters each. -/
def Layout.Consists (L : Layout) (others : List Ty) (chains : Nat) : Prop :=
  .inverter ∉ others ∧ .empty ∉ others ∧ L.magnets.Perm (others ++ List.replicate (4 * chains) .inverter)

/-! ## Theorems -/

/-- C119. The number that is returned counts each chain of inverters five times. -/
theorem C119_count (L : Layout) (others : List Ty) (chains : Nat) (h : L.Consists others chains) :
    L.magnetCount = others.length + 5 * chains := by
  obtain ⟨h1, _, hp⟩ := h
  unfold Layout.magnetCount
  rw [hp.length_eq, (hp.filter _).length_eq, List.filter_append]
  have h2 : (others.filter fun t => decide (t = .inverter)) = [] := by
    rw [List.filter_eq_nil_iff]
    intro t ht he
    exact h1 (of_decide_eq_true he ▸ ht)
  have h3 : ((List.replicate (4 * chains) Ty.inverter).filter fun t => decide (t = .inverter)) = List.replicate (4 * chains) .inverter := by
    rw [List.filter_eq_self]
    intro t ht
    exact decide_eq_true (List.eq_of_mem_replicate ht)
  rw [h2, h3]
  simp only [List.nil_append, List.length_append, List.length_replicate]
  omega

/-- C119. Without inverters, the number is that of the occupied cells. Missing: inverters, see C119_false_chains. -/
theorem C119_plain_partial (L : Layout) (others : List Ty) (h : L.Consists others 0) : L.magnetCount = others.length :=
  C119_count L others 0 h

/-- C119. A layout with inverters never has the number of magnets that counts each chain of four inverters once. -/
theorem C119_false_chains (L : Layout) (others : List Ty) (chains : Nat) (h : L.Consists others chains) (hc : 0 < chains) :
    L.magnetCount ≠ others.length + chains := by
  rw [C119_count L others chains h]
  omega

/-! ## Examples -/

theorem sample_consists : sample.Consists [.input, .output] 1 := by
  refine ⟨by decide, by decide, ?_⟩
  have : sample.magnets = [.input, .inverter, .inverter, .inverter, .inverter, .output] := by decide +kernel
  rw [this]
  decide

example : sample.magnetCount = 7 := C119_count sample _ _ sample_consists

/-- A wire. -/
def wire : Layout := ⟨2, 0, fun c => if c = ⟨0, 0⟩ then .input else if c = ⟨1, 0⟩ then .normal else if c = ⟨2, 0⟩ then .output else .empty,
  fun _ => 0, [⟨0, 0⟩], [⟨2, 0⟩]⟩

example : wire.Consists [.input, .normal, .output] 0 := by
  refine ⟨by decide, by decide, ?_⟩
  have : wire.magnets = [.input, .normal, .output] := by decide +kernel
  rw [this]
  decide

end Verif.Qcc
