import Verif.Library.Apply
import Verif.Cells.Lemmas
import Verif.GateLevel.FlowProps
import Verif.GateLevel.EnumProps
import Mathlib.Data.List.FinRange
import Mathlib.Data.List.Nodup
import Mathlib.Tactic.SplitIfs
import Mathlib.Tactic.ByContra

/-!
# Lemmas for C59
-/
namespace Verif.Library

open Verif.Layouts Verif.Clocking

section
variable {X Y : Nat} {T : Cells.Tech}

/-- A cell to be placed: its position, its type and the name of its node. -/
structure Item (T : Cells.Tech) where
  pos : CellPos
  type : T.CellType
  name : String

/-- The cells of a gate at `c`, in the order in which they are placed. -/
def items (c : CellPos) (g : Gate X Y T.CellType) (name : String) : List (Item T) :=
  (List.finRange Y).flatMap (fun y => (List.finRange X).map (fun x => ⟨(c.1 + x.val, c.2.1 + y.val, c.2.2), g y x, name⟩))

theorem mem_items {c : CellPos} {g : Gate X Y T.CellType} {name : String} {i : Item T} :
    i ∈ items c g name ↔ ∃ y x, i = ⟨(c.1 + x.val, c.2.1 + y.val, c.2.2), g y x, name⟩ := by
  simp [items, eq_comm]

/-- Place a cell. -/
def put (s : Cells.State CellPos T) (i : Item T) : Cells.State CellPos T := putCell s i.pos i.type i.name

theorem assignGate_eq (s : Cells.State CellPos T) (c : CellPos) (g : Gate X Y T.CellType) (name : String) :
    assignGate s c g name = (items c g name).foldl put s := by
  unfold assignGate items
  rw [List.foldl_flatMap]
  congr 1
  funext s y
  rw [List.foldl_map]
  rfl

/-- All cells placed for a list of nodes. -/
def allItems (l : Lay) (gl : GateLevel.State) (setUp : Coord → Option (Gate X Y T.CellType)) (name : Nat → String)
    (nodes : List Nat) : List (Item T) :=
  nodes.flatMap (fun n => ((setUp (gl.getTile n)).map (fun g => items (relToAbs l X Y (gl.getTile n) (0, 0)) g (name n))).getD [])

theorem foldlM_eq (l : Lay) (gl : GateLevel.State) (setUp : Coord → Option (Gate X Y T.CellType)) (name : Nat → String)
    (nodes : List Nat) (s0 s : Cells.State CellPos T)
    (h : nodes.foldlM (fun s n => (setUp (gl.getTile n)).map
      (fun g => assignGate s (relToAbs l X Y (gl.getTile n) (0, 0)) g (name n))) s0 = some s) :
    (∀ n ∈ nodes, ∃ g, setUp (gl.getTile n) = some g) ∧ s = (allItems l gl setUp name nodes).foldl put s0 := by
  induction nodes generalizing s0 with
  | nil => simp at h; subst h; simp [allItems]
  | cons n ns ih =>
    rw [List.foldlM_cons] at h
    cases e : setUp (gl.getTile n) with
    | none => simp [e] at h
    | some g =>
      simp only [e, Option.map_some, Option.bind_eq_bind, Option.bind_some] at h
      obtain ⟨h1, h2⟩ := ih _ h
      refine ⟨?_, ?_⟩
      · intro k hk
        rcases List.mem_cons.1 hk with rfl | hk
        · exact ⟨g, e⟩
        · exact h1 k hk
      · rw [h2, assignGate_eq]
        unfold allItems
        rw [List.flatMap_cons, List.foldl_append, e]
        rfl

theorem mem_allItems {l : Lay} {gl : GateLevel.State} {setUp : Coord → Option (Gate X Y T.CellType)} {name : Nat → String}
    {nodes : List Nat} {i : Item T} :
    i ∈ allItems l gl setUp name nodes ↔ ∃ n ∈ nodes, ∃ g, setUp (gl.getTile n) = some g ∧
      ∃ (y : Fin Y) (x : Fin X), i = ⟨relToAbs l X Y (gl.getTile n) (x.val, y.val), g y x, name n⟩ := by
  unfold allItems
  rw [List.mem_flatMap]
  constructor
  · rintro ⟨n, hn, h⟩
    cases e : setUp (gl.getTile n) with
    | none => simp [e] at h
    | some g =>
      simp only [e, Option.map_some, Option.getD_some, mem_items] at h
      obtain ⟨y, x, rfl⟩ := h
      exact ⟨n, hn, g, e, y, x, rfl⟩
  · rintro ⟨n, hn, g, e, y, x, rfl⟩
    refine ⟨n, hn, ?_⟩
    simp only [e, Option.map_some, Option.getD_some, mem_items]
    exact ⟨y, x, rfl⟩

/-- No two cells that are not empty are placed at the same position. -/
def Free (l : List (Item T)) : Prop :=
  ∀ i ∈ l, ∀ j ∈ l, T.isEmpty i.type = false → T.isEmpty j.type = false → i.pos = j.pos → i = j

theorem put_type (hT : T.Lawful) (s : Cells.State CellPos T) (i : Item T) (p : CellPos) :
    (put s i).getCellType p = if p = i.pos ∧ T.isEmpty i.type = false then i.type else s.getCellType p := by
  unfold put putCell
  simp only
  split_ifs <;> simp_all [Cells.getCellType_assign, Cells.getCellType_assignName]

theorem put_name (s : Cells.State CellPos T) (i : Item T) (p : CellPos) :
    (put s i).getCellName p =
      if p = i.pos ∧ (T.isInput i.type || T.isOutput i.type) = true then i.name else s.getCellName p := by
  unfold put putCell
  simp only
  split_ifs <;> simp_all [Cells.getCellName_assignName, Cells.getCellName_assignType]

theorem put_mode (hT : T.Lawful) (s : Cells.State CellPos T) (i : Item T) (p : CellPos) :
    (put s i).getCellMode p = s.getCellMode p := by
  unfold put putCell
  simp only
  split_ifs <;> simp_all [Cells.getCellMode_assignName, Cells.getCellMode_assignType]

theorem put_inv (hT : T.Lawful) {s : Cells.State CellPos T} (h : Cells.Inv s) (i : Item T) : Cells.Inv (put s i) := by
  unfold put putCell
  simp only
  split_ifs
  · exact Cells.inv_name h _ _
  · exact Cells.inv_name (Cells.inv_type hT h _ _) _ _
  · exact h
  · exact Cells.inv_type hT h _ _

theorem fold_inv (hT : T.Lawful) {s : Cells.State CellPos T} (h : Cells.Inv s) (l : List (Item T)) :
    Cells.Inv (l.foldl put s) := by
  induction l generalizing s with
  | nil => exact h
  | cons i l ih => exact ih (put_inv hT h i)

theorem fold_mode (hT : T.Lawful) (s : Cells.State CellPos T) (l : List (Item T)) (p : CellPos) :
    (l.foldl put s).getCellMode p = s.getCellMode p := by
  induction l generalizing s with
  | nil => rfl
  | cons i l ih => rw [List.foldl_cons, ih, put_mode hT]

theorem fold_type_none (hT : T.Lawful) (s : Cells.State CellPos T) (l : List (Item T)) (p : CellPos)
    (h : ∀ i ∈ l, T.isEmpty i.type = false → i.pos ≠ p) : (l.foldl put s).getCellType p = s.getCellType p := by
  induction l generalizing s with
  | nil => rfl
  | cons i l ih =>
    rw [List.foldl_cons, ih _ (fun j hj => h j (List.mem_cons_of_mem _ hj)), put_type hT, if_neg]
    rintro ⟨rfl, h2⟩
    exact h i List.mem_cons_self h2 rfl

theorem fold_type (hT : T.Lawful) (s : Cells.State CellPos T) {l : List (Item T)} (hf : Free l) {i : Item T} (hi : i ∈ l)
    (he : T.isEmpty i.type = false) : (l.foldl put s).getCellType i.pos = i.type := by
  induction l generalizing s with
  | nil => simp at hi
  | cons j l ih =>
    rw [List.foldl_cons]
    have hf' : Free l := fun a ha b hb => hf a (List.mem_cons_of_mem _ ha) b (List.mem_cons_of_mem _ hb)
    by_cases hm : i ∈ l
    · exact ih _ hf' hm
    · have hij : i = j := (List.mem_cons.1 hi).resolve_right hm
      subst hij
      rw [fold_type_none hT, put_type hT, if_pos ⟨rfl, he⟩]
      intro a ha h1 h2
      have := hf i List.mem_cons_self a (List.mem_cons_of_mem _ ha) he h1 h2.symm
      exact hm (this ▸ ha)

theorem fold_name_none (s : Cells.State CellPos T) (l : List (Item T)) (p : CellPos)
    (h : ∀ i ∈ l, (T.isInput i.type || T.isOutput i.type) = true → i.pos ≠ p) :
    (l.foldl put s).getCellName p = s.getCellName p := by
  induction l generalizing s with
  | nil => rfl
  | cons i l ih =>
    rw [List.foldl_cons, ih _ (fun j hj => h j (List.mem_cons_of_mem _ hj)), put_name, if_neg]
    rintro ⟨rfl, h2⟩
    exact h i List.mem_cons_self h2 rfl

theorem io_full (hT : T.Lawful) {t : T.CellType} (h : (T.isInput t || T.isOutput t) = true) : T.isEmpty t = false := by
  by_contra he
  rw [Bool.not_eq_false, hT.empty_iff] at he
  subst he
  rw [hT.input_empty, hT.output_empty] at h
  exact absurd h (by decide)

theorem fold_name (hT : T.Lawful) (s : Cells.State CellPos T) {l : List (Item T)} (hf : Free l) {i : Item T} (hi : i ∈ l)
    (he : (T.isInput i.type || T.isOutput i.type) = true) : (l.foldl put s).getCellName i.pos = i.name := by
  induction l generalizing s with
  | nil => simp at hi
  | cons j l ih =>
    rw [List.foldl_cons]
    have hf' : Free l := fun a ha b hb => hf a (List.mem_cons_of_mem _ ha) b (List.mem_cons_of_mem _ hb)
    by_cases hm : i ∈ l
    · exact ih _ hf' hm
    · have hij : i = j := (List.mem_cons.1 hi).resolve_right hm
      subst hij
      rw [fold_name_none, put_name, if_pos ⟨rfl, he⟩]
      intro a ha h1 h2
      have := hf i List.mem_cons_self a (List.mem_cons_of_mem _ ha) (io_full hT he) (io_full hT h1) h2.symm
      exact hm (this ▸ ha)

end

end Verif.Library
