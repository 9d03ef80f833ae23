import Verif.Cells.Model
import Mathlib.Data.Finset.Card
import Mathlib.Data.List.Induction
import Mathlib.Tactic.SplitIfs

/-! # Lemmas about finite maps, sets and cell-level layouts -/
namespace Verif.Cells

section Maps
variable {K V : Type} [DecidableEq K]

theorem find_cons (p : K × V) (l : List (K × V)) (k : K) :
    find (p :: l) k = if p.1 = k then some p.2 else find l k := by
  unfold find
  rw [List.find?_cons]
  by_cases h : p.1 = k <;> simp [h]

theorem find_erase (l : List (K × V)) (a k : K) : find (erase l a) k = if k = a then none else find l k := by
  induction l with
  | nil => simp [find, erase]
  | cons p l ih =>
    unfold erase at ih ⊢
    rw [List.filter_cons]
    by_cases h : p.1 = a
    · simp only [h, ne_eq, not_true_eq_false, decide_false, Bool.false_eq_true, if_false, ih, find_cons]
      grind
    · simp only [ne_eq, h, not_false_eq_true, decide_true, if_true, find_cons, ih]
      grind

theorem find_assign (l : List (K × V)) (a k : K) (v : V) :
    find (assign l a v) k = if k = a then some v else find l k := by
  unfold assign
  rw [find_cons, find_erase]
  grind

theorem mem_keys_iff (l : List (K × V)) (k : K) : k ∈ l.map (·.1) ↔ (find l k).isSome := by
  induction l with
  | nil => simp [find]
  | cons p l ih => rw [List.map_cons, List.mem_cons, find_cons, ih]; grind

theorem keys_erase (l : List (K × V)) (k : K) : (erase l k).map (·.1) = (l.map (·.1)).filter (fun a => a ≠ k) := by
  unfold erase; rw [List.filter_map]; rfl

theorem nodup_erase {l : List (K × V)} (h : (l.map (·.1)).Nodup) (k : K) : ((erase l k).map (·.1)).Nodup := by
  rw [keys_erase]; exact h.filter _

theorem nodup_assign {l : List (K × V)} (h : (l.map (·.1)).Nodup) (k : K) (v : V) :
    ((assign l k v).map (·.1)).Nodup := by
  unfold assign
  rw [List.map_cons, List.nodup_cons]
  refine ⟨?_, nodup_erase h k⟩
  rw [keys_erase]; simp

theorem mem_setErase (l : List K) (k a : K) : a ∈ setErase l k ↔ a ∈ l ∧ a ≠ k := by simp [setErase]

theorem mem_setInsert (l : List K) (k a : K) : a ∈ setInsert l k ↔ a = k ∨ a ∈ l := by
  unfold setInsert; split_ifs with h <;> grind

theorem nodup_setErase {l : List K} (h : l.Nodup) (k : K) : (setErase l k).Nodup := h.filter _

theorem nodup_setInsert {l : List K} (h : l.Nodup) (k : K) : (setInsert l k).Nodup := by
  unfold setInsert; split_ifs with hk
  · exact h
  · exact List.nodup_cons.2 ⟨hk, h⟩

end Maps

/-- What the layout relies on: a type is empty iff it is `EMPTY`, no type is both input and output or empty and one of
them, and a mode is normal iff it is the value-initialised one. -/
structure Tech.Lawful (T : Tech) : Prop where
  empty_iff : ∀ t, T.isEmpty t = true ↔ t = T.empty
  input_empty : T.isInput T.empty = false
  output_empty : T.isOutput T.empty = false
  disjoint : ∀ t, ¬(T.isInput t = true ∧ T.isOutput t = true)
  normal_iff : ∀ m, T.isNormalMode m = true ↔ m = T.normalMode

theorem qca_lawful : qca.Lawful :=
  ⟨fun t => by cases t <;> simp [qca], rfl, rfl, fun t => by cases t <;> decide, fun m => by cases m <;> simp [qca]⟩
theorem molQca_lawful : molQca.Lawful :=
  ⟨fun t => by cases t <;> simp [molQca], rfl, rfl, fun t => by cases t <;> decide, fun m => by cases m <;> simp [molQca]⟩
theorem inml_lawful : inml.Lawful :=
  ⟨fun t => by cases t <;> simp [inml], rfl, rfl, fun t => by cases t <;> decide, fun _ => ⟨fun _ => rfl, fun _ => rfl⟩⟩
theorem sidb_lawful : sidb.Lawful :=
  ⟨fun t => by cases t <;> simp [sidb], rfl, rfl, fun t => by cases t <;> decide, fun _ => ⟨fun _ => rfl, fun _ => rfl⟩⟩

section Layout
variable {C : Type} [DecidableEq C] {T : Tech}

theorem getCellType_assign (hT : T.Lawful) (s : State C T) (c k : C) (ct : T.CellType) :
    (s.assignCellType c ct).getCellType k = if k = c then ct else s.getCellType k := by
  unfold State.assignCellType State.getCellType
  by_cases he : T.isEmpty ct
  · simp only [he, if_true, find_erase]
    have := (hT.empty_iff ct).1 he
    split_ifs <;> simp [this]
  · simp only [he, Bool.false_eq_true, if_false]
    split_ifs <;> simp_all [find_assign]

theorem getCellMode_assignType (s : State C T) (c k : C) (ct : T.CellType) :
    (s.assignCellType c ct).getCellMode k = if k = c ∧ T.isEmpty ct then T.normalMode else s.getCellMode k := by
  unfold State.assignCellType State.getCellMode
  by_cases he : T.isEmpty ct
  · simp only [he, if_true, find_erase]
    split_ifs <;> simp_all
  · simp only [he, Bool.false_eq_true, if_false]
    split_ifs <;> simp_all

theorem getCellName_assignType (s : State C T) (c k : C) (ct : T.CellType) :
    (s.assignCellType c ct).getCellName k = s.getCellName k := by
  unfold State.assignCellType State.getCellName
  split_ifs <;> rfl

theorem getCellMode_assignMode (hT : T.Lawful) (s : State C T) (c k : C) (m : T.CellMode) :
    (s.assignCellMode c m).getCellMode k = if k = c then m else s.getCellMode k := by
  unfold State.assignCellMode State.getCellMode
  by_cases he : T.isNormalMode m
  · have := (hT.normal_iff m).1 he
    simp only [he, if_true, find_erase]
    split_ifs <;> simp_all
  · simp only [he, Bool.false_eq_true, if_false, find_assign]
    split_ifs <;> simp_all

theorem getCellName_assignName (s : State C T) (c k : C) (n : String) :
    (s.assignCellName c n).getCellName k = if k = c then n else s.getCellName k := by
  unfold State.assignCellName State.getCellName
  by_cases he : n = ""
  · simp only [he, if_true, find_erase]
    split_ifs <;> simp_all
  · simp only [he, if_false, find_assign]
    split_ifs <;> simp_all

theorem getCellType_assignMode (s : State C T) (c k : C) (m : T.CellMode) :
    (s.assignCellMode c m).getCellType k = s.getCellType k := by
  unfold State.assignCellMode State.getCellType; split_ifs <;> rfl

theorem getCellType_assignName (s : State C T) (c k : C) (n : String) :
    (s.assignCellName c n).getCellType k = s.getCellType k := by
  unfold State.assignCellName State.getCellType; split_ifs <;> rfl

theorem getCellName_assignMode (s : State C T) (c k : C) (m : T.CellMode) :
    (s.assignCellMode c m).getCellName k = s.getCellName k := by
  unfold State.assignCellMode State.getCellName; split_ifs <;> rfl

theorem getCellMode_assignName (s : State C T) (c k : C) (n : String) :
    (s.assignCellName c n).getCellMode k = s.getCellMode k := by
  unfold State.assignCellName State.getCellMode; split_ifs <;> rfl

/-- The invariant of a cell-level layout. -/
structure Inv (s : State C T) : Prop where
  nodup : (s.types.map (·.1)).Nodup
  nodupIn : s.inputs.Nodup
  nodupOut : s.outputs.Nodup
  stored : ∀ c t, find s.types c = some t → t ≠ T.empty
  inputs : ∀ c, c ∈ s.inputs ↔ T.isInput (s.getCellType c) = true
  outputs : ∀ c, c ∈ s.outputs ↔ T.isOutput (s.getCellType c) = true

theorem inv_new (hT : T.Lawful) (n : String) (x y : Nat) : Inv (new n x y : State C T) := by
  refine ⟨List.nodup_nil, List.nodup_nil, List.nodup_nil, ?_, ?_, ?_⟩
  · intro c t h; simp [new, find] at h
  · intro c; simp [new, State.getCellType, find, hT.input_empty]
  · intro c; simp [new, State.getCellType, find, hT.output_empty]

theorem inv_type (hT : T.Lawful) {s : State C T} (h : Inv s) (c : C) (ct : T.CellType) :
    Inv (s.assignCellType c ct) := by
  have hdis := hT.disjoint ct
  refine ⟨?_, ?_, ?_, ?_, ?_, ?_⟩
  · unfold State.assignCellType
    split_ifs <;> simp only [] <;> first | exact nodup_erase h.nodup c | exact nodup_assign h.nodup c ct
  · unfold State.assignCellType
    split_ifs <;> simp only [] <;>
      first | exact nodup_setErase h.nodupIn c | exact nodup_setInsert (nodup_setErase h.nodupIn c) c
  · unfold State.assignCellType
    split_ifs <;> simp only [] <;>
      first | exact nodup_setErase h.nodupOut c | exact nodup_setInsert (nodup_setErase h.nodupOut c) c
  · intro k t
    have hst := h.stored k t
    have hem := hT.empty_iff ct
    unfold State.assignCellType
    split_ifs <;> simp only [find_erase, find_assign] <;> grind
  · intro k
    rw [getCellType_assign hT]
    have h1 := h.inputs k
    have hem := hT.empty_iff ct
    have h2 := hT.input_empty
    unfold State.assignCellType
    split_ifs <;> simp only [mem_setErase, mem_setInsert] <;> grind
  · intro k
    rw [getCellType_assign hT]
    have h1 := h.outputs k
    have hem := hT.empty_iff ct
    have h2 := hT.output_empty
    unfold State.assignCellType
    split_ifs <;> simp only [mem_setErase, mem_setInsert] <;> grind

theorem inv_mode {s : State C T} (h : Inv s) (c : C) (m : T.CellMode) : Inv (s.assignCellMode c m) := by
  unfold State.assignCellMode
  split_ifs <;> exact ⟨h.nodup, h.nodupIn, h.nodupOut, h.stored, h.inputs, h.outputs⟩

theorem inv_name {s : State C T} (h : Inv s) (c : C) (n : String) : Inv (s.assignCellName c n) := by
  unfold State.assignCellName
  split_ifs <;> exact ⟨h.nodup, h.nodupIn, h.nodupOut, h.stored, h.inputs, h.outputs⟩

theorem inv_run (hT : T.Lawful) {s : State C T} (h : Inv s) (ops : List (Op C T)) : Inv (run s ops) := by
  induction ops generalizing s with
  | nil => exact h
  | cons op ops ih =>
    cases op with
    | type c ct => exact ih (inv_type hT h c ct)
    | mode c m => exact ih (inv_mode h c m)
    | name c n => exact ih (inv_name h c n)

theorem mem_cells {s : State C T} (h : Inv s) (c : C) : c ∈ s.cells ↔ s.getCellType c ≠ T.empty := by
  unfold State.cells State.getCellType
  rw [mem_keys_iff]
  cases hf : find s.types c with
  | none => simp
  | some t => simpa using h.stored c t hf

end Layout
end Verif.Cells
