import Verif.Cells.Lemmas

/-! # C43: obstructions -/
namespace Verif.Cells

variable {C : Type} [DecidableEq C]

/-! ## Specification -/

/-- What an operation says about the coordinate `c`: obstructed, cleared, or nothing. -/
def coordEvent (c : C) : ObstOp C → Option Bool
  | .obstructCoordinate k => if k = c then some true else none
  | .clearCoordinate k => if k = c then some false else none
  | .clearCoordinates => some false
  | _ => none

/-- What an operation says about the (directed) connection from `a` to `b`. -/
def connEvent (a b : C) : ObstOp C → Option Bool
  | .obstructConnection s t => if s = a ∧ t = b then some true else none
  | .clearConnection s t => if s = a ∧ t = b then some false else none
  | .clearConnections => some false
  | _ => none

/-- The last thing a history says, `false` if it says nothing. -/
def lastSaid (ev : ObstOp C → Option Bool) (ops : List (ObstOp C)) : Bool := ((ops.filterMap ev).getLast?).getD false

theorem lastSaid_snoc (ev : ObstOp C → Option Bool) (ops : List (ObstOp C)) (op : ObstOp C) :
    lastSaid ev (ops ++ [op]) = (ev op).getD (lastSaid ev ops) := by
  unfold lastSaid
  rw [List.filterMap_append]
  cases h : ev op <;> simp [List.filterMap_cons, h]

theorem obstRun_snoc (o : Obst C) (ops : List (ObstOp C)) (op : ObstOp C) :
    o.run (ops ++ [op]) = (o.run ops).step op := by simp [Obst.run]

theorem mem_coords (ops : List (ObstOp C)) (c : C) :
    c ∈ ((⟨[], []⟩ : Obst C).run ops).coords ↔ lastSaid (coordEvent c) ops = true := by
  induction ops using List.reverseRecOn with
  | nil => simp [Obst.run, lastSaid]
  | append_singleton ops op ih =>
    rw [obstRun_snoc, lastSaid_snoc]
    cases op <;> simp only [Obst.step, coordEvent, mem_setInsert, mem_setErase, Option.getD_none, ih]
      <;> first | grind | simp

theorem mem_conns (ops : List (ObstOp C)) (a b : C) :
    (a, b) ∈ ((⟨[], []⟩ : Obst C).run ops).conns ↔ lastSaid (connEvent a b) ops = true := by
  induction ops using List.reverseRecOn with
  | nil => simp [Obst.run, lastSaid]
  | append_singleton ops op ih =>
    rw [obstRun_snoc, lastSaid_snoc]
    cases op <;> simp only [Obst.step, connEvent, mem_setInsert, mem_setErase, Option.getD_none, ih]
      <;> first | grind | simp

/-- C43: whatever the history, a coordinate is reported as obstructed iff the last operation that mentioned it (or
cleared all coordinates) obstructed it, or it is occupied in the underlying layout. -/
theorem C43_coordinates (u : Under C) (ops : List (ObstOp C)) (c : C) :
    ((⟨[], []⟩ : Obst C).run ops).isObstructedCoordinate u c = true ↔
      lastSaid (coordEvent c) ops = true ∨ u.occupied c = true := by
  unfold Obst.isObstructedCoordinate
  simp only [gt_iff_lt, List.count_pos_iff, mem_coords]
  split_ifs with h <;> simp [h]

/-- C43: a connection is reported as obstructed iff the last operation that mentioned it, in this direction, (or cleared
all connections) obstructed it, or the underlying layout connects the two tiles in this direction. -/
theorem C43_connections (u : Under C) (ops : List (ObstOp C)) (a b : C) :
    ((⟨[], []⟩ : Obst C).run ops).isObstructedConnection u a b = true ↔
      lastSaid (connEvent a b) ops = true ∨ u.incomingSignal b a = true ∨ u.outgoingSignal a b = true := by
  unfold Obst.isObstructedConnection
  simp only [gt_iff_lt, List.count_pos_iff, mem_conns]
  split_ifs with h <;> simp [h]

/-- C43: obstructing or clearing something twice is the same as once, clearing undoes obstructing, and coordinates and
connections do not influence each other. -/
theorem C43_set_laws (u : Under C) (ops : List (ObstOp C)) (c a b : C) (h : u.occupied c = false) :
    ((⟨[], []⟩ : Obst C).run (ops ++ [.obstructCoordinate c, .clearCoordinate c])).isObstructedCoordinate u c = false ∧
    ((⟨[], []⟩ : Obst C).run (ops ++ [.clearCoordinate c, .obstructCoordinate c])).isObstructedCoordinate u c = true ∧
    ((⟨[], []⟩ : Obst C).run (ops ++ [.obstructConnection a b, .clearConnections])).isObstructedCoordinate u c =
      ((⟨[], []⟩ : Obst C).run ops).isObstructedCoordinate u c := by
  refine ⟨?_, ?_, ?_⟩
  · rw [← Bool.not_eq_true, C43_coordinates, show ops ++ [ObstOp.obstructCoordinate c, .clearCoordinate c] =
      (ops ++ [.obstructCoordinate c]) ++ [.clearCoordinate c] by simp, lastSaid_snoc]
    simp [coordEvent, h]
  · rw [C43_coordinates, show ops ++ [ObstOp.clearCoordinate c, .obstructCoordinate c] =
      (ops ++ [.clearCoordinate c]) ++ [.obstructCoordinate c] by simp, lastSaid_snoc]
    simp [coordEvent]
  · rw [Bool.eq_iff_iff, C43_coordinates, C43_coordinates, show ops ++ [ObstOp.obstructConnection a b,
      .clearConnections] = (ops ++ [.obstructConnection a b]) ++ [.clearConnections] by simp, lastSaid_snoc,
      lastSaid_snoc]
    simp [coordEvent]

/-- A coordinate obstructed, cleared and obstructed again; a connection in one direction only. -/
example :
    let ops : List (ObstOp Nat) := [.obstructCoordinate 1, .obstructConnection 1 2, .clearCoordinates,
      .obstructCoordinate 1, .obstructCoordinate 3, .clearCoordinate 3]
    let u : Under Nat := ⟨fun c => c == 7, fun _ _ => false, fun _ _ => false⟩
    let o := (⟨[], []⟩ : Obst Nat).run ops
    o.isObstructedCoordinate u 1 = true ∧ o.isObstructedCoordinate u 3 = false ∧
    o.isObstructedCoordinate u 7 = true ∧ o.isObstructedConnection u 1 2 = true ∧
    o.isObstructedConnection u 2 1 = false := by decide

end Verif.Cells
