import Verif.Cells.Lemmas

/-! # C41: cell types, modes, names, inputs and outputs -/
namespace Verif.Cells

variable {C : Type} [DecidableEq C] {T : Tech}

/-! ## Specification: what the history says about a cell -/

/-- The type the operation gives to `c`, if any. -/
def typeEvent (c : C) : Op C T → Option T.CellType
  | .type k t => if k = c then some t else none
  | _ => none

/-- The mode the operation gives to `c`, if any: removing a cell resets its mode. -/
def modeEvent (c : C) : Op C T → Option T.CellMode
  | .mode k m => if k = c then some m else none
  | .type k t => if k = c ∧ t = T.empty then some T.normalMode else none
  | _ => none

/-- The name the operation gives to `c`, if any. Removing a cell does *not* reset its name. -/
def nameEvent (c : C) : Op C T → Option String
  | .name k n => if k = c then some n else none
  | _ => none

/-- The last event of a history, if any. -/
def lastEvent {α : Type} (ev : Op C T → Option α) (ops : List (Op C T)) : Option α := (ops.filterMap ev).getLast?

def lastType (ops : List (Op C T)) (c : C) : T.CellType := (lastEvent (typeEvent c) ops).getD T.empty

theorem lastEvent_snoc {α : Type} (ev : Op C T → Option α) (ops : List (Op C T)) (op : Op C T) :
    lastEvent ev (ops ++ [op]) = (ev op).or (lastEvent ev ops) := by
  unfold lastEvent
  rw [List.filterMap_append]
  cases h : ev op <;> simp [List.filterMap_cons, h]

theorem run_snoc (s : State C T) (ops : List (Op C T)) (op : Op C T) :
    run s (ops ++ [op]) = (run s ops).step op := by simp [run]

/-- C41: whatever the history of assignments, a cell has the type it was last assigned, and none if it never was. -/
theorem C41_type (hT : T.Lawful) (n : String) (x y : Nat) (ops : List (Op C T)) (c : C) :
    (run (new n x y) ops).getCellType c = lastType ops c := by
  induction ops using List.reverseRecOn with
  | nil => rfl
  | append_singleton ops op ih =>
    rw [run_snoc]
    unfold lastType at ih ⊢
    rw [lastEvent_snoc]
    cases op with
    | type k t =>
      simp only [State.step, getCellType_assign hT, typeEvent]
      by_cases h : k = c
      · simp [h]
      · simp only [h, if_false, Option.none_or, ← ih]; grind
    | mode k m => simp only [State.step, getCellType_assignMode, typeEvent, Option.none_or, ih]
    | name k m => simp only [State.step, getCellType_assignName, typeEvent, Option.none_or, ih]

/-- C41: a cell is a primary input (output) iff its last assigned type is an input (output) type. -/
theorem C41_pi_po (hT : T.Lawful) (n : String) (x y : Nat) (ops : List (Op C T)) (c : C) :
    ((run (new n x y) ops).isPi c = true ↔ T.isInput (lastType ops c) = true) ∧
    ((run (new n x y) ops).isPo c = true ↔ T.isOutput (lastType ops c) = true) ∧
    ((run (new n x y) ops).isEmptyCell c = true ↔ lastType ops c = T.empty) := by
  have h := inv_run hT (inv_new hT n x y) ops
  rw [← C41_type hT n x y ops c]
  refine ⟨?_, ?_, ?_⟩
  · unfold State.isPi; rw [decide_eq_true_iff]; exact h.inputs c
  · unfold State.isPo; rw [decide_eq_true_iff]; exact h.outputs c
  · exact hT.empty_iff _

/-- C41: `num_cells`, `num_pis` and `num_pos` count exactly the cells whose last assigned type is not empty, an input
type, or an output type. -/
theorem C41_counts (hT : T.Lawful) (n : String) (x y : Nat) (ops : List (Op C T)) :
    ∃ cells pis pos : Finset C,
      (∀ c, c ∈ cells ↔ lastType ops c ≠ T.empty) ∧ (run (new n x y) ops).numCells = cells.card ∧
      (∀ c, c ∈ pis ↔ T.isInput (lastType ops c) = true) ∧ (run (new n x y) ops).numPis = pis.card ∧
      (∀ c, c ∈ pos ↔ T.isOutput (lastType ops c) = true) ∧ (run (new n x y) ops).numPos = pos.card := by
  have h := inv_run hT (inv_new hT n x y) ops
  refine ⟨(run (new n x y) ops).cells.toFinset, (run (new n x y) ops).inputs.toFinset,
    (run (new n x y) ops).outputs.toFinset, ?_, ?_, ?_, ?_, ?_, ?_⟩
  · intro c; rw [List.mem_toFinset, mem_cells h, C41_type hT]
  · rw [State.cells, List.toFinset_card_of_nodup h.nodup]; simp [State.numCells]
  · intro c; rw [List.mem_toFinset, h.inputs, C41_type hT]
  · rw [List.toFinset_card_of_nodup h.nodupIn]; rfl
  · intro c; rw [List.mem_toFinset, h.outputs, C41_type hT]
  · rw [List.toFinset_card_of_nodup h.nodupOut]; rfl

/-- C41: `foreach_cell`, `foreach_pi` and `foreach_po` visit every such cell exactly once, and `get_cells_by_type`
returns the cells of a (non-empty) type. -/
theorem C41_foreach (hT : T.Lawful) (n : String) (x y : Nat) (ops : List (Op C T)) :
    (run (new n x y) ops).cells.Nodup ∧ (run (new n x y) ops).inputs.Nodup ∧ (run (new n x y) ops).outputs.Nodup ∧
    (∀ c, c ∈ (run (new n x y) ops).cells ↔ lastType ops c ≠ T.empty) ∧
    (∀ c, c ∈ (run (new n x y) ops).inputs ↔ T.isInput (lastType ops c) = true) ∧
    (∀ c, c ∈ (run (new n x y) ops).outputs ↔ T.isOutput (lastType ops c) = true) ∧
    (∀ t, t ≠ T.empty → ((run (new n x y) ops).cellsByType t).Nodup ∧
      ∀ c, c ∈ (run (new n x y) ops).cellsByType t ↔ lastType ops c = t) := by
  have h := inv_run hT (inv_new hT n x y) ops
  refine ⟨h.nodup, h.nodupIn, h.nodupOut, ?_, ?_, ?_, ?_⟩
  · intro c; rw [mem_cells h, C41_type hT]
  · intro c; rw [h.inputs, C41_type hT]
  · intro c; rw [h.outputs, C41_type hT]
  · intro t ht
    refine ⟨h.nodup.filter _, fun c => ?_⟩
    unfold State.cellsByType
    rw [List.mem_filter, mem_cells h, C41_type hT]
    simp only [decide_eq_true_eq]
    constructor
    · exact fun a => a.2
    · intro a; exact ⟨by rw [a]; exact ht, a⟩

/-- C41: a cell has the mode it was last assigned, unless it has been removed since. -/
theorem C41_mode (hT : T.Lawful) (n : String) (x y : Nat) (ops : List (Op C T)) (c : C) :
    (run (new n x y) ops).getCellMode c = (lastEvent (modeEvent c) ops).getD T.normalMode := by
  induction ops using List.reverseRecOn with
  | nil => rfl
  | append_singleton ops op ih =>
    rw [run_snoc, lastEvent_snoc]
    cases op with
    | type k t =>
      simp only [State.step, getCellMode_assignType, modeEvent, hT.empty_iff]
      by_cases h : k = c ∧ t = T.empty
      · simp [h]
      · simp only [h, if_false, Option.none_or, ← ih]; grind
    | mode k m =>
      simp only [State.step, getCellMode_assignMode hT, modeEvent]
      by_cases h : k = c
      · simp [h]
      · simp only [h, if_false, Option.none_or, ← ih]; grind
    | name k m => simp only [State.step, getCellMode_assignName, modeEvent, Option.none_or, ih]

/-- C41: a cell has the name it was last assigned, whatever happened to its type in between. -/
theorem C41_name (n : String) (x y : Nat) (ops : List (Op C T)) (c : C) :
    (run (new n x y) ops).getCellName c = (lastEvent (nameEvent c) ops).getD "" := by
  induction ops using List.reverseRecOn with
  | nil => rfl
  | append_singleton ops op ih =>
    rw [run_snoc, lastEvent_snoc]
    cases op with
    | type k t => simp only [State.step, getCellName_assignType, nameEvent, Option.none_or, ih]
    | mode k m => simp only [State.step, getCellName_assignMode, nameEvent, Option.none_or, ih]
    | name k m =>
      simp only [State.step, getCellName_assignName, nameEvent]
      by_cases h : k = c
      · simp [h]
      · simp only [h, if_false, Option.none_or, ← ih]; grind

/-- C41: the four technologies of the library meet the hypotheses of the theorems above. -/
theorem C41_technologies : qca.Lawful ∧ molQca.Lawful ∧ inml.Lawful ∧ sidb.Lawful :=
  ⟨qca_lawful, molQca_lawful, inml_lawful, sidb_lawful⟩

/-- C41: in each technology exactly one cell type is empty, an input, and an output, and (where there are modes) exactly
one mode is the normal one. -/
theorem C41_designated :
    (∀ c, (qca.isEmpty c ↔ c = .empty) ∧ (qca.isInput c ↔ c = .input) ∧ (qca.isOutput c ↔ c = .output)) ∧
    (∀ c, (molQca.isEmpty c ↔ c = .empty) ∧ (molQca.isInput c ↔ c = .input) ∧ (molQca.isOutput c ↔ c = .output)) ∧
    (∀ c, (inml.isEmpty c ↔ c = .empty) ∧ (inml.isInput c ↔ c = .input) ∧ (inml.isOutput c ↔ c = .output)) ∧
    (∀ c, (sidb.isEmpty c ↔ c = .empty) ∧ (sidb.isInput c ↔ c = .input) ∧ (sidb.isOutput c ↔ c = .output)) ∧
    (∀ m, (qca.isNormalMode m ↔ m = .normal) ∧ (molQca.isNormalMode m ↔ m = .normal)) := by
  refine ⟨?_, ?_, ?_, ?_, ?_⟩ <;> intro c <;> cases c <;> simp

/-- An input overwritten by an output, a removed cell that had a name and a mode. -/
def demoOps : List (Op (Nat × Nat) qca) :=
  [.type (0, 0) QcaType.input, .type (1, 0) QcaType.normal, .mode (1, 0) QcaMode.rotated, .name (1, 0) "w",
   .type (0, 0) QcaType.output, .type (2, 0) QcaType.input, .type (1, 0) QcaType.empty]

example :
    let s := run (new : State (Nat × Nat) qca) demoOps
    s.isPi (0, 0) = false ∧ s.isPo (0, 0) = true ∧ s.numCells = 2 ∧ s.numPis = 1 ∧ s.numPos = 1 ∧
    s.getCellType (1, 0) = QcaType.empty ∧ s.getCellMode (1, 0) = QcaMode.normal := by decide

/-- The name of a removed cell is still there: a cell placed on the same position inherits it. -/
theorem C41_name_survives_removal :
    (run (new : State (Nat × Nat) qca) demoOps).getCellType (1, 0) = QcaType.empty ∧
    (run (new : State (Nat × Nat) qca) demoOps).getCellName (1, 0) = "w" ∧
    (run (new : State (Nat × Nat) qca) (demoOps ++ [.type (1, 0) QcaType.normal])).getCellName (1, 0) = "w" := by
  decide

end Verif.Cells
