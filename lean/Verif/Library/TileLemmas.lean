import Verif.Library.Tile
import Mathlib.Logic.Relation
import Mathlib.Tactic.Tauto

/-!
# Lemmas on ports, tables and connected cells
-/
namespace Verif.Library

variable {N : Nat} {T : Type}

/-! ## Specification -/

/-- There is a non-empty cell in column `p.1` of row `p.2`. -/
def Gate.filled {X Y : Nat} (isEmpty : T → Bool) (g : Gate X Y T) (p : Port) : Bool :=
  match g.cell p.1 p.2 with
  | some v => !isEmpty v
  | none => false

/-- Next to each other in a row or in a column. -/
def touching (p q : Port) : Bool :=
  (p.1 == q.1 && (p.2 == q.2 + 1 || q.2 == p.2 + 1)) || (p.2 == q.2 && (p.1 == q.1 + 1 || q.1 == p.1 + 1))

/-- Next to each other in a row, in a column or diagonally. -/
def near (p q : Port) : Bool := p != q && decide (p.1 ≤ q.1 + 1) && decide (q.1 ≤ p.1 + 1) && decide (p.2 ≤ q.2 + 1) && decide (q.2 ≤ p.2 + 1)

/-- The cells `p` and `q` of a gate are connected by cells of the gate that are next to each other in the sense of `adj`. -/
def Linked (adj : Port → Port → Bool) (isEmpty : T → Bool) (g : Gate N N T) : Port → Port → Prop :=
  Relation.ReflTransGen (fun p q => g.filled isEmpty p = true ∧ g.filled isEmpty q = true ∧ adj p q = true)

/-! ## Computing connected cells -/

/-- All positions of a gate. -/
def grid (N : Nat) : List Port := (List.range N).flatMap (fun x => (List.range N).map (fun y => (x, y)))

theorem mem_grid {p : Port} : p ∈ grid N ↔ p.1 < N ∧ p.2 < N := by
  obtain ⟨x, y⟩ := p
  simp [grid]

theorem filled_grid {isEmpty : T → Bool} {g : Gate N N T} {p : Port} (h : g.filled isEmpty p = true) : p ∈ grid N := by
  rw [mem_grid]
  by_contra hh
  simp [Gate.filled, Gate.cell, hh] at h

/-- Cells reached from `S` in at most `fuel` rounds; `cells` are the non-empty cells. -/
def spread (adj : Port → Port → Bool) (cells : List Port) : Nat → List Port → List Port
  | 0, S => S
  | fuel + 1, S => spread adj cells fuel (S ++ cells.filter (fun q => !S.contains q && S.any (fun p => adj p q)))

/-- The non-empty cells. -/
def Gate.cells (isEmpty : T → Bool) (g : Gate N N T) : List Port := (grid N).filter (g.filled isEmpty)

theorem mem_cells {isEmpty : T → Bool} {g : Gate N N T} {p : Port} : p ∈ g.cells isEmpty ↔ g.filled isEmpty p = true := by
  simp only [Gate.cells, List.mem_filter]
  exact ⟨And.right, fun h => ⟨filled_grid h, h⟩⟩

theorem spread_sound {adj : Port → Port → Bool} {isEmpty : T → Bool} {g : Gate N N T} {a : Port} :
    ∀ (fuel : Nat) (S : List Port), (∀ p ∈ S, Linked adj isEmpty g a p ∧ g.filled isEmpty p = true) →
      ∀ q ∈ spread adj (g.cells isEmpty) fuel S, Linked adj isEmpty g a q
  | 0, S, h, q, hq => (h q hq).1
  | fuel + 1, S, h, q, hq => by
    refine spread_sound fuel _ ?_ q hq
    intro p hp
    rcases List.mem_append.1 hp with hp | hp
    · exact h p hp
    · simp only [List.mem_filter, Bool.and_eq_true, List.any_eq_true] at hp
      obtain ⟨hc, -, r, hr, hadj⟩ := hp
      have hf := mem_cells.1 hc
      exact ⟨(h r hr).1.tail ⟨(h r hr).2, hf, hadj⟩, hf⟩

/-- `q` is linked to `p`, by computation. -/
theorem linked_of_spread {adj : Port → Port → Bool} {isEmpty : T → Bool} {g : Gate N N T} {p q : Port} (fuel : Nat)
    (hp : g.filled isEmpty p = true) (hq : q ∈ spread adj (g.cells isEmpty) fuel [p]) : Linked adj isEmpty g p q :=
  spread_sound fuel [p] (fun r hr => by
    rw [List.mem_singleton.1 hr]
    exact ⟨.refl, hp⟩) q hq

/-- A set of cells without other neighbors contains all cells that are linked to its elements. -/
theorem not_linked_of_closed {adj : Port → Port → Bool} {isEmpty : T → Bool} {g : Gate N N T} {p q : Port} (S : List Port)
    (hp : p ∈ S) (hc : ∀ a ∈ S, ∀ b ∈ g.cells isEmpty, adj a b = true → b ∈ S) (hq : q ∉ S) : ¬ Linked adj isEmpty g p q := by
  intro h
  refine hq ?_
  clear hq
  induction h with
  | refl => exact hp
  | tail _ h ih => exact hc _ ih _ (mem_cells.2 h.2.1) h.2.2

/-! ## Sets of ports -/

theorem mem_emplace (p q : Port) : ∀ l : List Port, q ∈ emplace p l ↔ q = p ∨ q ∈ l
  | [] => by simp [emplace]
  | r :: l => by
    unfold emplace
    by_cases h1 : Port.lt p r = true
    · rw [if_pos h1]; simp
    · rw [if_neg h1]
      by_cases h2 : Port.lt r p = true
      · rw [if_pos h2, List.mem_cons, mem_emplace p q l, List.mem_cons]; tauto
      · rw [if_neg h2]
        have e : p = r := by
          unfold Port.lt at h1 h2
          simp only [Bool.or_eq_true, decide_eq_true_eq, Bool.and_eq_true, beq_iff_eq, not_or, not_and] at h1 h2
          ext
          · omega
          · have : p.1 = r.1 := by omega
            have := h1.2 this
            have := h2.2 (by omega)
            omega
        simp [e]

theorem mem_foldl_emplace (q : Port) : ∀ (l s : List Port), q ∈ l.foldl (fun s p => emplace p s) s ↔ q ∈ l ∨ q ∈ s
  | [], s => by simp
  | p :: l, s => by
    rw [List.foldl_cons, mem_foldl_emplace q l, mem_emplace, List.mem_cons]; tauto

theorem mem_portSet (q : Port) (l : List Port) : q ∈ portSet l ↔ q ∈ l := by
  unfold portSet
  rw [mem_foldl_emplace]; simp

theorem mem_sides (d : Side) : d ∈ sides := by cases d <;> decide

/-! ## Rotations in tables -/

/-- The rotations, written out. -/
def Rot.fn : Rot → Gate N N T → Gate N N T
  | .id, g => g
  | .r90, g => fun i j => g j.rev i
  | .r180, g => fun i j => g i.rev j.rev
  | .r270, g => fun i j => g j i.rev

theorem Rot.apply_eq (empty : T) (r : Rot) (g : Gate N N T) : r.apply empty g = some (r.fn g) := by
  have key : ∀ {a b : Gate N N T}, (∀ x y, x < N → y < N → a.cell x y = b.cell x y) → a = b := by
    intro a b h
    refine cell_ext (fun x y => ?_)
    by_cases hh : x < N ∧ y < N
    · exact h x y hh.1 hh.2
    · rw [cell_none _ hh, cell_none _ hh]
  cases r with
  | id => rfl
  | r90 =>
    obtain ⟨r, hr, hc⟩ := rotate90_cell empty g
    refine (hr.trans (congrArg some (key fun x y hx hy => ?_)))
    rw [hc x y hx hy]
    simp [Gate.cell, hx, hy, Rot.fn, Fin.rev, show N - 1 - x < N by omega, show N - (x + 1) = N - 1 - x by omega]
  | r180 =>
    refine congrArg some (key fun x y hx hy => ?_)
    rw [rotate180_cell g hx hy]
    simp [Gate.cell, hx, hy, Rot.fn, Fin.rev, show N - 1 - x < N by omega, show N - (x + 1) = N - 1 - x by omega,
      show N - 1 - y < N by omega, show N - (y + 1) = N - 1 - y by omega]
  | r270 =>
    obtain ⟨r, hr, hc⟩ := rotate270_cell empty g
    refine (hr.trans (congrArg some (key fun x y hx hy => ?_)))
    rw [hc x y hx hy]
    simp [Gate.cell, hx, hy, Rot.fn, Fin.rev, show N - 1 - y < N by omega, show N - (y + 1) = N - 1 - y by omega]

theorem lookup_gate {empty : T} {map : List (Entry N T)} {p : PortList} {g : Gate N N T}
    (h : lookup empty map p = some (.gate g)) : ∃ e ∈ map, e.ports = p ∧ g = e.rot.fn e.base := by
  unfold lookup at h
  split at h
  · simp at h
  · rename_i e he
    rw [Rot.apply_eq] at h
    simp only [Option.map_some, Option.some.injEq, Outcome.gate.injEq] at h
    exact ⟨e, List.mem_of_find?_eq_some he, by simpa using List.find?_some he, h.symm⟩

end Verif.Library
