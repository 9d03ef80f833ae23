import Verif.Io.Qcc
import Mathlib.Data.List.Basic
import Mathlib.Data.List.Pairwise
import Mathlib.Data.List.Nodup

/-!
# C115: output for ToPoliNano and MagCAD

## Specification
-/
namespace Verif.Qcc

/-- A cell of the layout that is not empty. -/
def Layout.Occupied (L : Layout) (c : Cell) : Prop := c.x ≤ L.w ∧ c.y ≤ L.h ∧ L.type c ≠ .empty

/-- Inputs are on the left border of the occupied part and outputs on its right border. -/
def Layout.OnBorders (L : Layout) : Prop :=
  (∀ p ∈ L.pis, ∀ c, L.Occupied c → p.x ≤ c.x) ∧ ∀ p ∈ L.pos, ∀ c, L.Occupied c → c.x ≤ p.x

/-- Pins are cells. -/
def Layout.Pins (L : Layout) : Prop := (∀ p ∈ L.pis, L.Occupied p) ∧ ∀ p ∈ L.pos, L.Occupied p

/-- `PartOf t dx dy`: the structure that begins with a magnet of type `t` includes the magnet `dx` to the right and `dy` below. -/
inductive PartOf : Ty → Nat → Nat → Prop
  | or1 : PartOf .slantedUp 0 1
  | or2 : PartOf .slantedUp 0 2
  | and1 : PartOf .slantedDown 0 1
  | and2 : PartOf .slantedDown 0 2
  | fork1 : PartOf .coupler 0 1
  | fork2 : PartOf .coupler 0 2
  | fork3 : PartOf .coupler 1 0
  | fork4 : PartOf .coupler 1 2
  | cross1 : PartOf .crosswire 2 0
  | cross2 : PartOf .crosswire 0 2
  | cross3 : PartOf .crosswire 1 1
  | cross4 : PartOf .crosswire 2 2
  | inv1 : PartOf .inverter 1 0
  | inv2 : PartOf .inverter 2 0
  | inv3 : PartOf .inverter 3 0

/-- `c` is another magnet of the structure that begins at `d`. -/
def Layout.Within (L : Layout) (c d : Cell) : Prop := ∃ dx dy, PartOf (L.type d) dx dy ∧ c = ⟨d.x + dx, d.y + dy⟩

/-- The names of components, in the order of the file. -/
def names : List String := ["Magnet", "Coupler", "Cross Wire", "And", "Inverter", "Or"]

/-- The component a magnet stands for. -/
inductive Stands : Ty → String → Prop
  | normal : Stands .normal "Magnet"
  | input : Stands .input "Magnet"
  | output : Stands .output "Magnet"
  | coupler : Stands .coupler "Coupler"
  | cross : Stands .crosswire "Cross Wire"
  | down : Stands .slantedDown "And"
  | inv : Stands .inverter "Inverter"
  | up : Stands .slantedUp "Or"

/-- The item describes the cell: its component, its place relative to the top left of the occupied part, its clock number, and for an inverter
its length. -/
def Layout.Describes (L : Layout) (i : Item) (c : Cell) : Prop :=
  (∃ n, names[i.comp]? = some n ∧ Stands (L.type c) n) ∧ i.phase = L.clock c ∧ (i.length = some 4 ↔ L.type c = .inverter) ∧
  ∃ l t, (∃ d, L.Occupied d ∧ d.x = l) ∧ (∃ d, L.Occupied d ∧ d.y = t) ∧ (∀ d, L.Occupied d → l ≤ d.x ∧ t ≤ d.y) ∧
    c.x = l + i.x ∧ c.y = t + i.y

/-! ## Lemmas -/

theorem mem_covers (L : Layout) (c d : Cell) : c ∈ covers (L.type d) d ↔ L.Within c d := by
  unfold Layout.Within
  constructor
  · intro h
    cases ht : L.type d <;> rw [ht] at h <;> simp only [covers, List.mem_cons, List.not_mem_nil, or_false] at h
    · rcases h with h | h
      · exact ⟨0, 1, .or1, h⟩
      · exact ⟨0, 2, .or2, h⟩
    · rcases h with h | h
      · exact ⟨0, 1, .and1, h⟩
      · exact ⟨0, 2, .and2, h⟩
    · rcases h with h | h | h
      · exact ⟨1, 0, .inv1, h⟩
      · exact ⟨2, 0, .inv2, h⟩
      · exact ⟨3, 0, .inv3, h⟩
    · rcases h with h | h | h | h
      · exact ⟨0, 1, .fork1, h⟩
      · exact ⟨0, 2, .fork2, h⟩
      · exact ⟨1, 0, .fork3, h⟩
      · exact ⟨1, 2, .fork4, h⟩
    · rcases h with h | h | h | h
      · exact ⟨2, 0, .cross1, h⟩
      · exact ⟨0, 2, .cross2, h⟩
      · exact ⟨1, 1, .cross3, h⟩
      · exact ⟨2, 2, .cross4, h⟩
  · rintro ⟨dx, dy, h, rfl⟩
    generalize L.type d = t at h
    cases h <;> simp [covers]

theorem find_least (p : Nat → Bool) (n k : Nat) (hk : k ≤ n) (h : p k = true) :
    p (((List.range (n + 1)).find? p).getD 0) = true ∧ ((List.range (n + 1)).find? p).getD 0 ≤ n ∧
      ∀ j, p j = true → ((List.range (n + 1)).find? p).getD 0 ≤ j := by
  cases hf : (List.range (n + 1)).find? p with
  | none =>
    rw [List.find?_eq_none] at hf
    exact absurd h (hf k (List.mem_range.2 (by omega)))
  | some m =>
    rw [List.find?_range_eq_some] at hf
    obtain ⟨h1, h2, h3⟩ := hf
    have h2 := List.mem_range.1 h2
    refine ⟨h1, by simp only [Option.getD_some]; omega, fun j hj => ?_⟩
    simp only [Option.getD_some]
    by_contra hn
    have := h3 j (by omega)
    simp [hj] at this

theorem minX_spec (L : Layout) (c : Cell) (hc : L.Occupied c) : (∃ d, L.Occupied d ∧ d.x = L.minX) ∧ ∀ d, L.Occupied d → L.minX ≤ d.x := by
  have key : ∀ d, L.Occupied d → ((List.range (L.h + 1)).any fun y => decide (L.type ⟨d.x, y⟩ ≠ .empty)) = true := by
    intro d hd
    rw [List.any_eq_true]
    exact ⟨d.y, List.mem_range.2 (by have := hd.2.1; omega), decide_eq_true hd.2.2⟩
  obtain ⟨h1, h2, h3⟩ := find_least (fun x => (List.range (L.h + 1)).any fun y => decide (L.type ⟨x, y⟩ ≠ .empty)) L.w c.x hc.1 (key c hc)
  refine ⟨?_, fun d hd => h3 d.x (key d hd)⟩
  obtain ⟨y, hy, h4⟩ := List.any_eq_true.1 h1
  exact ⟨⟨L.minX, y⟩, ⟨h2, by have := List.mem_range.1 hy; dsimp only; omega, of_decide_eq_true h4⟩, rfl⟩

theorem minY_spec (L : Layout) (c : Cell) (hc : L.Occupied c) : (∃ d, L.Occupied d ∧ d.y = L.minY) ∧ ∀ d, L.Occupied d → L.minY ≤ d.y := by
  have key : ∀ d, L.Occupied d → ((List.range (L.w + 1)).any fun x => decide (L.type ⟨x, d.y⟩ ≠ .empty)) = true := by
    intro d hd
    rw [List.any_eq_true]
    exact ⟨d.x, List.mem_range.2 (by have := hd.1; omega), decide_eq_true hd.2.2⟩
  obtain ⟨h1, h2, h3⟩ := find_least (fun y => (List.range (L.w + 1)).any fun x => decide (L.type ⟨x, y⟩ ≠ .empty)) L.h c.y hc.2.1 (key c hc)
  refine ⟨?_, fun d hd => h3 d.y (key d hd)⟩
  obtain ⟨x, hx, h4⟩ := List.any_eq_true.1 h1
  exact ⟨⟨x, L.minY⟩, ⟨by have := List.mem_range.1 hx; dsimp only; omega, h2, of_decide_eq_true h4⟩, rfl⟩

theorem describes (L : Layout) (c : Cell) (hc : L.Occupied c) : L.Describes (L.item c) c := by
  refine ⟨?_, rfl, ?_, L.minX, L.minY, (minX_spec L c hc).1, (minY_spec L c hc).1,
    fun d hd => ⟨(minX_spec L c hc).2 d hd, (minY_spec L c hc).2 d hd⟩, ?_, ?_⟩
  · have he := hc.2.2
    unfold Layout.item
    dsimp only
    generalize L.type c = t at he
    cases t
    · exact absurd rfl he
    · exact ⟨_, rfl, .normal⟩
    · exact ⟨_, rfl, .input⟩
    · exact ⟨_, rfl, .output⟩
    · exact ⟨_, rfl, .up⟩
    · exact ⟨_, rfl, .down⟩
    · exact ⟨_, rfl, .inv⟩
    · exact ⟨_, rfl, .coupler⟩
    · exact ⟨_, rfl, .cross⟩
  · unfold Layout.item
    dsimp only
    split <;> simp_all
  · have := (minX_spec L c hc).2 c hc
    unfold Layout.item
    dsimp only
    omega
  · have := (minY_spec L c hc).2 c hc
    unfold Layout.item
    dsimp only
    omega

theorem forall₂_describes (L : Layout) : ∀ cs : List Cell, (∀ c ∈ cs, L.Occupied c) → List.Forall₂ L.Describes (cs.map L.item) cs
  | [], _ => .nil
  | c :: cs, h => .cons (describes L c (h c (by simp))) (forall₂_describes L cs fun d hd => h d (List.mem_cons_of_mem _ hd))


/-- The order of the loops. -/
def Before (c d : Cell) : Prop := c.y < d.y ∨ (c.y = d.y ∧ c.x < d.x)

theorem before_trans {a b c : Cell} (h1 : Before a b) (h2 : Before b c) : Before a c := by
  unfold Before at *
  omega

theorem before_irrefl (a : Cell) : ¬ Before a a := by
  unfold Before
  omega

theorem covers_before (t : Ty) (c : Cell) : ∀ d ∈ covers t c, Before c d := by
  intro d hd
  cases t <;> simp only [covers, List.mem_cons, List.not_mem_nil, or_false] at hd
  · rcases hd with rfl | rfl <;> unfold Before <;> dsimp only <;> omega
  · rcases hd with rfl | rfl <;> unfold Before <;> dsimp only <;> omega
  · rcases hd with rfl | rfl | rfl <;> unfold Before <;> dsimp only <;> omega
  · rcases hd with rfl | rfl | rfl | rfl <;> unfold Before <;> dsimp only <;> omega
  · rcases hd with rfl | rfl | rfl | rfl <;> unfold Before <;> dsimp only <;> omega

theorem cells_sorted (L : Layout) : L.cells.Pairwise Before := by
  unfold Layout.cells
  rw [List.pairwise_flatMap]
  refine ⟨fun y _ => ?_, ?_⟩
  · rw [List.pairwise_map]
    exact List.pairwise_lt_range.imp fun h => Or.inr ⟨rfl, h⟩
  · refine List.pairwise_lt_range.imp ?_
    intro a b hab c hc d hd
    obtain ⟨x, _, rfl⟩ := List.mem_map.1 hc
    obtain ⟨z, _, rfl⟩ := List.mem_map.1 hd
    exact Or.inl hab

theorem mem_cells (L : Layout) (c : Cell) : c ∈ L.cells ↔ c.x ≤ L.w ∧ c.y ≤ L.h := by
  unfold Layout.cells
  simp only [List.mem_flatMap, List.mem_map, List.mem_range]
  constructor
  · rintro ⟨y, hy, x, hx, rfl⟩
    dsimp only
    omega
  · intro h
    exact ⟨c.y, by omega, c.x, by omega, rfl⟩

theorem scan_sublist (L : Layout) : ∀ cs skip, (L.scan cs skip).Sublist cs
  | [], _ => by rw [Layout.scan]
  | c :: cs, skip => by
    rw [Layout.scan]
    split
    · exact (scan_sublist L cs skip).cons _
    · exact (scan_sublist L cs _).cons_cons _

theorem scan_iff (L : Layout) : ∀ (cs : List Cell) (skip : List Cell), cs.Pairwise Before → ∀ c ∈ cs,
    (c ∈ L.scan cs skip ↔ L.type c ≠ .empty ∧ c ∉ skip ∧ ∀ d ∈ L.scan cs skip, c ∉ covers (L.type d) d)
  | [], _, _, c, hc => by cases hc
  | h :: cs, skip, hp, c, hc => by
    obtain ⟨hh, hp⟩ := List.pairwise_cons.1 hp
    have hn : h ∉ cs := fun hm => before_irrefl h (hh h hm)
    rw [Layout.scan]
    by_cases hs : L.type h = .empty ∨ h ∈ skip
    · rw [if_pos hs]
      rcases List.mem_cons.1 hc with rfl | hc
      · constructor
        · intro hm
          exact absurd ((scan_sublist L cs skip).subset hm) hn
        · rintro ⟨h1, h2, _⟩
          rcases hs with hs | hs
          · exact absurd hs h1
          · exact absurd hs h2
      · exact scan_iff L cs skip hp c hc
    · rw [if_neg hs]
      rw [not_or] at hs
      rcases List.mem_cons.1 hc with rfl | hc
      · refine ⟨fun _ => ⟨hs.1, hs.2, ?_⟩, fun _ => by simp⟩
        intro d hd hm
        have hb := covers_before _ _ _ hm
        rcases List.mem_cons.1 hd with rfl | hd
        · exact before_irrefl _ hb
        · exact before_irrefl _ (before_trans (hh d ((scan_sublist L cs _).subset hd)) hb)
      · have hne : c ≠ h := fun e => hn (e ▸ hc)
        rw [List.mem_cons, scan_iff L cs _ hp c hc, List.mem_append, not_or]
        constructor
        · rintro (e | ⟨h1, ⟨h2, h3⟩, h4⟩)
          · exact absurd e hne
          · refine ⟨h1, h2, ?_⟩
            intro d hd
            rcases List.mem_cons.1 hd with rfl | hd
            · exact h3
            · exact h4 d hd
        · rintro ⟨h1, h2, h3⟩
          exact Or.inr ⟨h1, ⟨h2, h3 h (by simp)⟩, fun d hd => h3 d (List.mem_cons_of_mem _ hd)⟩

theorem minX_zero (L : Layout) (c : Cell) (hc : L.Occupied c) (hx : c.x = 0) : L.minX = 0 := by
  unfold Layout.minX
  have : ((List.range (L.h + 1)).any fun y => decide (L.type ⟨0, y⟩ ≠ .empty)) = true := by
    rw [List.any_eq_true]
    refine ⟨c.y, List.mem_range.2 (by have := hc.2.1; omega), decide_eq_true ?_⟩
    have e : (⟨0, c.y⟩ : Cell) = c := by cases c; simp_all
    rw [e]
    exact hc.2.2
  rw [List.range_succ_eq_map (n := L.w), List.find?_cons, this]
  rfl

/-! ## Theorems -/

/-- C115. An accepted layout is written as items that describe cells such that a cell has an item, and only one, if and only if it is occupied and not
part of the structure of another cell that has an item. -/
theorem C115_items (L : Layout) (items : List Item) (h : L.write = some items) : ∃ cs : List Cell, List.Forall₂ L.Describes items cs ∧ cs.Nodup ∧
    ∀ c, c ∈ cs ↔ L.Occupied c ∧ ∀ d ∈ cs, ¬ L.Within c d := by
  suffices hs : ∃ cs : List Cell, items = cs.map L.item ∧ cs.Nodup ∧ ∀ c, c ∈ cs ↔ L.Occupied c ∧ ∀ d ∈ cs, c ∉ covers (L.type d) d by
    obtain ⟨cs, h1, h2, h3⟩ := hs
    refine ⟨cs, ?_, h2, fun c => ?_⟩
    · rw [h1]
      exact forall₂_describes L cs fun c hc => ((h3 c).1 hc).1
    · rw [h3 c]
      simp only [mem_covers]
  unfold Layout.write at h
  split at h
  · cases h
    refine ⟨L.scan L.cells [], rfl, ?_, ?_⟩
    · refine (scan_sublist L _ _).nodup ?_
      refine (cells_sorted L).imp ?_
      intro a b hab e
      rw [e] at hab
      exact before_irrefl b hab
    · intro c
      by_cases hc : c ∈ L.cells
      · rw [scan_iff L L.cells [] (cells_sorted L) c hc]
        have := (mem_cells L c).1 hc
        unfold Layout.Occupied
        simp [this]
      · constructor
        · intro hm
          exact absurd ((scan_sublist L _ _).subset hm) hc
        · rintro ⟨ho, _⟩
          exact absurd ((mem_cells L c).2 ⟨ho.1, ho.2.1⟩) hc
  · cases h

/-- C115. Each occupied cell is written: it has an item or is part of the structure of one. -/
theorem C115_all (L : Layout) (items : List Item) (h : L.write = some items) : ∃ cs : List Cell, List.Forall₂ L.Describes items cs ∧
    ∀ c, L.Occupied c → c ∈ cs ∨ ∃ d ∈ cs, L.Within c d := by
  obtain ⟨cs, h1, _, h2⟩ := C115_items L items h
  refine ⟨cs, h1, fun c hc => ?_⟩
  by_cases hm : c ∈ cs
  · exact Or.inl hm
  · right
    by_contra hn
    exact hm ((h2 c).2 ⟨hc, fun d hd hd' => hn ⟨d, hd, hd'⟩⟩)

/-- C115. A layout whose cells reach from the first to the last column is accepted if and only if its inputs are on the left border and its outputs
on the right border. Missing: other layouts, see C115_false_offset. -/
theorem C115_accepted_partial (L : Layout) (hp : L.Pins) (h0 : ∃ c, L.Occupied c ∧ c.x = 0) (hw : ∃ c, L.Occupied c ∧ c.x = L.w) :
    L.write ≠ none ↔ L.OnBorders := by
  obtain ⟨c0, ho0, hx0⟩ := h0
  obtain ⟨cw, how, hxw⟩ := hw
  have hm := minX_zero L c0 ho0 hx0
  have ha : L.write ≠ none ↔ L.accepted = true := by
    unfold Layout.write
    split <;> simp_all
  rw [ha]
  unfold Layout.accepted Layout.OnBorders
  rw [Bool.and_eq_true, List.all_eq_true, List.all_eq_true, hm]
  simp only [Nat.sub_zero, decide_eq_true_eq]
  constructor
  · rintro ⟨h1, h2⟩
    refine ⟨fun p hp' c _ => by rw [h1 p hp']; omega, fun p hp' c hc => by rw [h2 p hp']; exact hc.1⟩
  · rintro ⟨h1, h2⟩
    refine ⟨fun p hp' => ?_, fun p hp' => ?_⟩
    · have := h1 p hp' c0 ho0
      omega
    · have := h2 p hp' cw how
      have := (hp.2 p hp').1
      omega

/-- A wire that begins in the second column. -/
def shifted : Layout := ⟨2, 0, fun c => if c = ⟨1, 0⟩ then .input else if c = ⟨2, 0⟩ then .output else .empty, fun _ => 0, [⟨1, 0⟩], [⟨2, 0⟩]⟩

/-- C115. A layout whose first column is empty is refused, although its inputs and outputs are on the borders. -/
theorem C115_false_offset : shifted.write = none ∧ shifted.OnBorders ∧ shifted.Pins := by
  refine ⟨by decide +kernel, ⟨?_, ?_⟩, by unfold Layout.Pins Layout.Occupied; decide +kernel⟩
  · intro p hp c hc
    have hp' : p = ⟨1, 0⟩ := by simpa [shifted] using hp
    by_contra hn
    rw [hp'] at hn
    refine hc.2.2 ?_
    have h1 : c ≠ ⟨1, 0⟩ := fun e => by rw [e] at hn; exact hn (Nat.le_refl _)
    have h2 : c ≠ ⟨2, 0⟩ := fun e => by rw [e] at hn; exact hn (by decide)
    simp [shifted, h1, h2]
  · intro p hp c hc
    have hp' : p = ⟨2, 0⟩ := by simpa [shifted] using hp
    rw [hp']
    exact hc.1

/-- C115. A layout without pins is accepted, although the exception demands designated pins. -/
theorem C115_false_pins : ∃ L : Layout, L.pis = [] ∧ L.pos = [] ∧ L.write ≠ none :=
  ⟨⟨0, 0, fun _ => .normal, fun _ => 0, [], []⟩, rfl, rfl, by decide +kernel⟩

/-! ## Examples -/

/-- An inverter between two pins. -/
def sample : Layout := ⟨5, 0, fun c => if c.y ≠ 0 ∨ 5 < c.x then .empty else if c.x = 0 then .input else if c.x = 5 then .output else .inverter,
  fun c => c.x % 3, [⟨0, 0⟩], [⟨5, 0⟩]⟩

example : sample.write = some [⟨0, 0, 0, 0, none⟩, ⟨4, 1, 0, 1, some 4⟩, ⟨0, 5, 0, 2, none⟩] := by decide +kernel

example : sample.Pins ∧ (∃ c, sample.Occupied c ∧ c.x = 0) ∧ ∃ c, sample.Occupied c ∧ c.x = sample.w := by
  refine ⟨by unfold Layout.Pins Layout.Occupied; decide +kernel, ⟨⟨0, 0⟩, by unfold Layout.Occupied; decide +kernel, rfl⟩,
    ⟨⟨5, 0⟩, by unfold Layout.Occupied; decide +kernel, rfl⟩⟩

end Verif.Qcc
