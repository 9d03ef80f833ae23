import Verif.Io.GroundText
import Mathlib.Data.List.Basic
import Mathlib.Order.Monotone.Basic
import Mathlib.Algebra.Order.Ring.Rat
import Mathlib.Data.List.Sort

/-!
# C111: written ground states

## Specification
-/
namespace Verif.GroundText

open Verif.ChargeText

variable {P : Type}

/-- Reading of the text: it is cut at the ends of lines and each line at its semicolons; both end what they follow. -/
def readBack (text : List Char) : List (List (List Char)) := (text.splitOn '\n').dropLast.map fun l => (l.splitOn ';').dropLast

/-- The charge a value stands for. -/
def chargeOf (v : List Char) : Option Int := if v = ['-', '1'] then some (-1) else if v = ['0'] then some 0 else
  if v = ['1'] then some 1 else none

/-- A value that can be part of the text. -/
def Plain (v : List Char) : Prop := '\n' ∉ v ∧ ';' ∉ v

/-- The contracts of formatting: rounding is monotone, and numbers contain no delimiters, and
the order of cells is total. -/
structure Format.Good (F : Format P) : Prop where
  mono : Monotone F.round
  xy : ∀ c, Plain (F.xy c).1 ∧ Plain (F.xy c).2
  index : ∀ i, Plain (F.index i)
  trans : ∀ a b c, F.le a b = true → F.le b c = true → F.le a c = true
  total : ∀ a b, (F.le a b || F.le b a) = true

/-- A distribution of a list is a ground state: none has a lower rounded energy. -/
def IsGround (F : Format P) (dists : List (Dist P)) (d : Dist P) : Prop := ∀ e ∈ dists, F.round d.energy ≤ F.round e.energy

/-! ## Lemmas -/

/-- Values that are each followed by a character. -/
def terminated (x : Char) (vs : List (List Char)) : List Char := vs.flatMap fun v => v ++ [x]

theorem terminated_eq (x : Char) : ∀ vs : List (List Char), terminated x vs = [x].intercalate (vs ++ [[]])
  | [] => by simp [terminated, List.intercalate]
  | v :: vs => by
    have h := terminated_eq x vs
    unfold terminated at h ⊢
    rw [List.flatMap_cons, h]
    cases vs <;> simp [List.intercalate, List.intersperse]

theorem split_terminated (x : Char) (vs : List (List Char)) (h : ∀ v ∈ vs, x ∉ v) :
    ((terminated x vs).splitOn x).dropLast = vs := by
  rw [terminated_eq, List.splitOn_intercalate, List.dropLast_concat]
  · intro v hv
    rcases List.mem_append.1 hv with hv | hv
    · exact h v hv
    · rw [List.mem_singleton] at hv
      rw [hv]
      exact List.not_mem_nil
  · simp

theorem line_eq : ∀ vs : List (List Char), line vs = terminated ';' vs ++ ['\n']
  | [] => rfl
  | v :: vs => by
    rw [line, line_eq vs]
    simp [terminated]

theorem read_lines (ls : List (List (List Char))) (h : ∀ l ∈ ls, ∀ v ∈ l, Plain v) :
    readBack (ls.flatMap line) = ls := by
  have e : ls.flatMap line = terminated '\n' (ls.map (terminated ';')) := by
    unfold terminated
    rw [List.flatMap_map]
    congr 1
    funext l
    exact line_eq l
  unfold readBack
  rw [e, split_terminated, List.map_map]
  · conv_rhs => rw [← List.map_id ls]
    exact List.map_congr_left fun l hl => split_terminated ';' l fun v hv => (h l hl v hv).2
  · intro t ht hc
    obtain ⟨l, hl, rfl⟩ := List.mem_map.1 ht
    unfold terminated at hc
    obtain ⟨v, hv, hc⟩ := List.mem_flatMap.1 hc
    rcases List.mem_append.1 hc with hc | hc
    · exact (h l hl v hv).1 hc
    · rw [List.mem_singleton] at hc
      exact absurd hc (by decide)

theorem least_le (l : List (Dist P)) : ∀ e : Rat, least e l ≤ e ∧ (∀ d ∈ l, least e l ≤ d.energy) ∧
    (least e l = e ∨ ∃ d ∈ l, d.energy = least e l) := by
  induction l with
  | nil => intro e; exact ⟨le_refl _, by simp, Or.inl rfl⟩
  | cons d l ih =>
    intro e
    rw [least]
    obtain ⟨h1, h2, h3⟩ := ih (if d.energy < e then d.energy else e)
    by_cases hd : d.energy < e
    · rw [if_pos hd] at h1 h2 h3 ⊢
      refine ⟨h1.trans hd.le, ?_, ?_⟩
      · intro x hx
        rcases List.mem_cons.1 hx with rfl | hx
        · exact h1
        · exact h2 x hx
      · rcases h3 with h3 | ⟨x, hx, h3⟩
        · exact Or.inr ⟨d, by simp, h3.symm⟩
        · exact Or.inr ⟨x, List.mem_cons_of_mem _ hx, h3⟩
    · rw [if_neg hd] at h1 h2 h3 ⊢
      refine ⟨h1, ?_, ?_⟩
      · intro x hx
        rcases List.mem_cons.1 hx with rfl | hx
        · exact h1.trans (not_lt.1 hd)
        · exact h2 x hx
      · rcases h3 with h3 | ⟨x, hx, h3⟩
        · exact Or.inl h3
        · exact Or.inr ⟨x, List.mem_cons_of_mem _ hx, h3⟩

theorem least_mem (d : Dist P) (l : List (Dist P)) :
    (∃ x ∈ d :: l, x.energy = least d.energy l) ∧ ∀ x ∈ d :: l, least d.energy l ≤ x.energy := by
  obtain ⟨h1, h2, h3⟩ := least_le l d.energy
  refine ⟨?_, ?_⟩
  · rcases h3 with h3 | ⟨x, hx, h3⟩
    · exact ⟨d, by simp, h3.symm⟩
    · exact ⟨x, List.mem_cons_of_mem _ hx, h3⟩
  · intro x hx
    rcases List.mem_cons.1 hx with rfl | hx
    · exact h1
    · exact h2 x hx

theorem lines_eq (F : Format P) (gs : List (Dist P)) : ∀ cs : List P, lines F gs cs =
    (cs.map fun c => (F.xy c).1 :: (F.xy c).2 :: gs.map (fun d => signText (d.charge c))).flatMap line
  | [] => rfl
  | c :: cs => by rw [lines, lines_eq F gs cs, List.map_cons, List.flatMap_cons]

theorem columns_eq (F : Format P) : ∀ (i : Nat) (gs : List (Dist P)),
    columns F i gs = (List.range' i gs.length).map fun k => 'G' :: 'S' :: '_' :: F.index k
  | _, [] => rfl
  | i, _ :: gs => by rw [columns, columns_eq F (i + 1) gs, List.length_cons, List.range'_succ, List.map_cons]

theorem plain_sign (s : State) : Plain (signText s) := by
  cases s <;> exact ⟨by decide +kernel, by decide +kernel⟩

/-! ## Theorems -/

/-- C111. The written distributions are, in order, exactly those that no other has a lower rounded energy than. -/
theorem C111_ground_states (F : Format P) (hF : F.Good) (dists : List (Dist P)) :
    (groundStates F dists).Sublist dists ∧ (∀ d, d ∈ groundStates F dists ↔ d ∈ dists ∧ IsGround F dists d) ∧
      (groundStates F dists = [] ↔ dists = []) := by
  cases dists with
  | nil => simp [groundStates]
  | cons d l =>
    obtain ⟨⟨x, hx, hm⟩, hl⟩ := least_mem d l
    have key : ∀ y ∈ d :: l, ((F.round y.energy - F.round (least d.energy l)).natAbs < 1 ↔ IsGround F (d :: l) y) := by
      intro y hy
      have h1 := hF.mono (hl y hy)
      constructor
      · intro h z hz
        have h2 := hF.mono (hl z hz)
        omega
      · intro h
        have h2 := h x hx
        rw [hm] at h2
        omega
    refine ⟨List.filter_sublist, ?_, ?_⟩
    · intro y
      rw [groundStates, List.mem_filter, decide_eq_true_eq]
      exact and_congr_right fun hy => key y hy
    · refine ⟨fun h => ?_, fun h => by cases h⟩
      have : x ∈ groundStates F (d :: l) := by
        rw [groundStates, List.mem_filter, decide_eq_true_eq, hm]
        exact ⟨hx, by simp⟩
      rw [h] at this
      cases this

/-- C111. Nothing is written if there are no distributions; else reading the text gives the names of the columns, one for each ground
state, and then, sorted, one line for each SiDB of the first ground state with its position and its value in each ground state. -/
theorem C111_text (F : Format P) (hF : F.Good) (dists : List (Dist P)) : (dists = [] ∧ run F dists = []) ∨
    ∃ (g : Dist P) (rest : List (Dist P)) (cs : List P), groundStates F dists = g :: rest ∧ cs.Perm g.sidbs ∧
      cs.Pairwise (fun a b => F.le a b = true) ∧ readBack (run F dists) =
      ("x [nm]".toList :: " y [nm]".toList ::
          (List.range (rest.length + 1)).map fun k => 'G' :: 'S' :: '_' :: F.index k) ::
        cs.map fun c => (F.xy c).1 :: (F.xy c).2 :: (g :: rest).map fun d => signText (d.charge c) := by
  have hg := (C111_ground_states F hF dists).2.2
  unfold run
  cases h : groundStates F dists with
  | nil => exact Or.inl ⟨hg.1 h, rfl⟩
  | cons g rest =>
    refine Or.inr ⟨g, rest, g.sidbs.mergeSort F.le, rfl, List.mergeSort_perm _ _,
      List.pairwise_mergeSort (fun a b c => hF.trans a b c) hF.total _, ?_⟩
    dsimp only
    rw [lines_eq, ← List.flatMap_cons, columns_eq, List.length_cons, ← List.range_eq_range']
    refine read_lines _ ?_
    intro l hl v hv
    rcases List.mem_cons.1 hl with rfl | hl
    · rcases List.mem_cons.1 hv with rfl | hv
      · exact ⟨by decide +kernel, by decide +kernel⟩
      · rcases List.mem_cons.1 hv with rfl | hv
        · exact ⟨by decide +kernel, by decide +kernel⟩
        · obtain ⟨k, _, rfl⟩ := List.mem_map.1 hv
          have := hF.index k
          unfold Plain at this ⊢
          simpa using this
    · obtain ⟨c, _, rfl⟩ := List.mem_map.1 hl
      rcases List.mem_cons.1 hv with rfl | hv
      · exact (hF.xy c).1
      · rcases List.mem_cons.1 hv with rfl | hv
        · exact (hF.xy c).2
        · obtain ⟨d, _, rfl⟩ := List.mem_map.1 hv
          exact plain_sign _

/-- C111. The value of an SiDB stands for its charge. -/
theorem C111_value (s : State) : chargeOf (signText s) = some (toSign s) := by
  cases s <;> decide +kernel

/-! ## Examples -/

/-- Positions on a line; energies are rounded down. -/
def fmt : Format Nat := ⟨fun e => (e * 1000000).floor, fun c => (List.replicate c '1', ['0']), fun i => List.replicate i '1',
  fun a b => decide (a ≤ b)⟩

/-- Three distributions, the first and last of which are ground states. -/
def sample : List (Dist Nat) :=
  [⟨1, [2, 1], fun c => if c = 1 then .negative else .neutral⟩, ⟨2, [2, 1], fun _ => .neutral⟩,
    ⟨1, [2, 1], fun c => if c = 2 then .negative else .neutral⟩]

example : (groundStates fmt sample).length = 2 := by decide +kernel

example : fmt.Good where
  mono := fun a b h => Rat.floor_monotone (mul_le_mul_of_nonneg_right h (by decide +kernel))
  xy := fun c => by simp [fmt, Plain, List.mem_replicate]
  index := fun i => by simp [fmt, Plain, List.mem_replicate]
  trans := fun a b c h1 h2 => by simp only [fmt, decide_eq_true_eq] at h1 h2 ⊢; omega
  total := fun a b => by simp only [fmt, Bool.or_eq_true, decide_eq_true_eq]; omega

end Verif.GroundText
