import Verif.Io.QllInml
import Verif.Io.QccProps
import Mathlib.Data.List.Perm.Basic

/-!
# C117: output of iNML layouts for MagCAD

The specification of items is that of C115.
-/
namespace Verif.Qcc

/-- The place of an element. -/
def Elem.place : Elem → Nat × Nat
  | .item i => (i.x, i.y)
  | .pin _ _ x y => (x, y)

/-- The items among the elements. -/
def itemsOf : List (Elem × Nat) → List Item
  | [] => []
  | (.item i, _) :: r => i :: itemsOf r
  | (.pin .., _) :: r => itemsOf r

/-- The pins among the elements. -/
def pinsOf : List (Elem × Nat) → List (String × Nat × Nat × Nat)
  | [] => []
  | (.item _, _) :: r => pinsOf r
  | (.pin n d x y, _) :: r => (n, d, x, y) :: pinsOf r

/-! ## Lemmas -/

theorem itemsOf_zipIdx (f : Cell → Item) (ps : List Elem) (hp : ∀ e ∈ ps, ∃ n d x y, e = .pin n d x y) : ∀ (cs : List Cell) (k : Nat),
    itemsOf ((cs.map (fun c => Elem.item (f c)) ++ ps).zipIdx k) = cs.map f
  | [], k => by
    rw [List.map_nil, List.nil_append, List.map_nil]
    induction ps generalizing k with
    | nil => rfl
    | cons e ps ih =>
      obtain ⟨n, d, x, y, rfl⟩ := hp e (by simp)
      rw [List.zipIdx_cons, itemsOf]
      exact ih (fun e he => hp e (List.mem_cons_of_mem _ he)) _
  | c :: cs, k => by
    rw [List.map_cons, List.cons_append, List.zipIdx_cons, itemsOf, itemsOf_zipIdx f ps hp cs, List.map_cons]

theorem pinsOf_zipIdx (ps : List (String × Nat × Nat × Nat)) (f : Cell → Item) : ∀ (cs : List Cell) (k : Nat),
    pinsOf ((cs.map (fun c => Elem.item (f c)) ++ ps.map fun p => Elem.pin p.1 p.2.1 p.2.2.1 p.2.2.2).zipIdx k) = ps
  | [], k => by
    rw [List.map_nil, List.nil_append]
    induction ps generalizing k with
    | nil => rfl
    | cons e ps ih => rw [List.map_cons, List.zipIdx_cons, pinsOf, ih]
  | c :: cs, k => by
    rw [List.map_cons, List.cons_append, List.zipIdx_cons, pinsOf, pinsOf_zipIdx ps f cs]

theorem qll_write (L : Layout) (name : Cell → String) (es : List (Elem × Nat)) (h : L.qll name = some es) : L.write = some (itemsOf es) := by
  unfold Layout.qll at h
  unfold Layout.write
  split at h
  · cases h
    rename_i ha
    rw [if_pos ha, itemsOf_zipIdx]
    intro e he
    unfold Layout.qllPins at he
    rcases List.mem_append.1 he with he | he
    · obtain ⟨c, _, rfl⟩ := List.mem_map.1 he
      exact ⟨_, _, _, _, rfl⟩
    · obtain ⟨c, _, rfl⟩ := List.mem_map.1 he
      exact ⟨_, _, _, _, rfl⟩
  · cases h

/-! ## Theorems -/

/-- C117. Each magnet has an item, and only one, unless it is part of the structure of another magnet that has an item. -/
theorem C117_items (L : Layout) (name : Cell → String) (es : List (Elem × Nat)) (h : L.qll name = some es) :
    ∃ cs : List Cell, List.Forall₂ L.Describes (itemsOf es) cs ∧ cs.Nodup ∧ ∀ c, c ∈ cs ↔ L.Occupied c ∧ ∀ d ∈ cs, ¬ L.Within c d :=
  C115_items L _ (qll_write L name es h)

/-- C117. There is one pin for each input and each output, with its name and direction, at its place. -/
theorem C117_pins (L : Layout) (name : Cell → String) (es : List (Elem × Nat)) (h : L.qll name = some es) :
    (pinsOf es).Perm (L.pis.map (fun c => (name c, 0, c.x - L.minX, c.y - L.minY)) ++
      L.pos.map fun c => (name c, 1, c.x - L.minX, c.y - L.minY)) := by
  unfold Layout.qll at h
  split at h
  · cases h
    have hq : L.qllPins name = ((L.pis.mergeSort fun a b => decide (a.y ≤ b.y)).map (fun c => (name c, 0, c.x - L.minX, c.y - L.minY)) ++
        (L.pos.mergeSort fun a b => decide (a.y ≤ b.y)).map fun c => (name c, 1, c.x - L.minX, c.y - L.minY)).map
        (fun p : String × Nat × Nat × Nat => Elem.pin p.1 p.2.1 p.2.2.1 p.2.2.2) := by
      unfold Layout.qllPins
      rw [List.map_append, List.map_map, List.map_map]
      rfl
    rw [hq, pinsOf_zipIdx]
    exact ((List.mergeSort_perm _ _).map _).append ((List.mergeSort_perm _ _).map _)
  · cases h

/-- C117. The identifiers are 1, 2, 3 and so on. -/
theorem C117_ids (L : Layout) (name : Cell → String) (es : List (Elem × Nat)) (h : L.qll name = some es) :
    es.map Prod.snd = List.range' 1 es.length := by
  unfold Layout.qll at h
  split at h
  · cases h
    rw [List.zipIdx_map_snd, List.length_zipIdx]
  · cases h

/-- C117. Each input and output that is not part of the structure of another magnet is written twice, as a magnet and as a pin at the same place. -/
theorem C117_false_once (L : Layout) (name : Cell → String) (es : List (Elem × Nat)) (h : L.qll name = some es) (p : Cell)
    (hp : p ∈ L.pis ∨ p ∈ L.pos) (ho : L.Occupied p) (hw : ∀ d, L.Occupied d → ¬ L.Within p d) :
    ∃ i n d k l, (Elem.item i, k) ∈ es ∧ (Elem.pin n d i.x i.y, l) ∈ es ∧ k ≠ l ∧ L.Describes i p := by
  unfold Layout.qll at h
  split at h
  · cases h
    have hc : p ∈ L.scan L.cells [] := by
      rw [scan_iff L L.cells [] (cells_sorted L) p ((mem_cells L p).2 ⟨ho.1, ho.2.1⟩)]
      refine ⟨ho.2.2, by simp, fun d hd hm => ?_⟩
      have hd' := (scan_sublist L L.cells []).subset hd
      have hne := ((scan_iff L L.cells [] (cells_sorted L) d hd').1 hd).1
      rw [mem_cells] at hd'
      exact hw d ⟨hd'.1, hd'.2, hne⟩ ((mem_covers L p d).1 hm)
    have hm : ∀ e, e ∈ (L.scan L.cells []).map (fun c => Elem.item (L.item c)) ++ L.qllPins name →
        ∃ k, (e, k) ∈ ((L.scan L.cells []).map (fun c => Elem.item (L.item c)) ++ L.qllPins name).zipIdx 1 := by
      intro e he
      obtain ⟨k, hk, rfl⟩ := List.getElem_of_mem he
      exact ⟨k + 1, by rw [List.mk_mem_zipIdx_iff_le_and_getElem?_sub]; simp [hk]⟩
    obtain ⟨k, hk⟩ := hm (.item (L.item p)) (List.mem_append_left _ (List.mem_map.2 ⟨p, hc, rfl⟩))
    obtain ⟨d, hd⟩ : ∃ d, Elem.pin (name p) d (L.item p).x (L.item p).y ∈ L.qllPins name := by
      unfold Layout.qllPins
      rcases hp with hp | hp
      · exact ⟨0, List.mem_append_left _ (List.mem_map.2 ⟨p, List.mem_mergeSort.2 hp, rfl⟩)⟩
      · exact ⟨1, List.mem_append_right _ (List.mem_map.2 ⟨p, List.mem_mergeSort.2 hp, rfl⟩)⟩
    obtain ⟨l, hl⟩ := hm _ (List.mem_append_right _ hd)
    refine ⟨L.item p, name p, d, k, l, hk, hl, ?_, describes L p ho⟩
    rintro rfl
    rw [List.mk_mem_zipIdx_iff_le_and_getElem?_sub] at hk hl
    have := hk.2.symm.trans hl.2
    simp at this
  · cases h

/-! ## Examples -/

example : ∃ es, sample.qll (fun _ => "a") = some es ∧ sample.Occupied ⟨0, 0⟩ ∧ ∀ d, sample.Occupied d → ¬ sample.Within ⟨0, 0⟩ d := by
  refine ⟨_, if_pos (by decide +kernel), by unfold Layout.Occupied; decide +kernel, ?_⟩
  rintro d _ ⟨dx, dy, hp, he⟩
  simp only [Cell.mk.injEq] at he
  generalize sample.type d = t at hp
  cases hp <;> omega

end Verif.Qcc
