import Verif.Cells.Model

/-!
# Gate libraries

Model of `include/fiction/technology/fcn_gate_library.hpp`, lines 144-335.
-/
namespace Verif.Library

variable {X Y : Nat} {T : Type}

/-- `fcn_gate`, fcn_gate_library.hpp:153-158: `GateSizeY` rows of `GateSizeX` cells. -/
abbrev Gate (X Y : Nat) (T : Type) := Fin Y → Fin X → T

/-- `g[r][c]` as a value; `none` is an access out of bounds (undefined behavior). -/
def Gate.get (g : Gate X Y T) (r c : Nat) : Option T :=
  if h : r < Y ∧ c < X then some (g ⟨r, h.1⟩ ⟨c, h.2⟩) else none

/-- `g[r][c] = v`; `none` is an access out of bounds (undefined behavior). -/
def Gate.set (g : Gate X Y T) (r c : Nat) (v : T) : Option (Gate X Y T) :=
  if r < Y ∧ c < X then some (fun i j => if i.val = r ∧ j.val = c then v else g i j) else none

/-- `EMPTY_GATE`, fcn_gate_library.hpp:333-334. -/
def emptyGate (empty : T) : Gate X Y T := fun _ _ => empty

/-- The iterations of `for x < GateSizeX` and `for y < GateSizeY`, fcn_gate_library.hpp:227-229, 291-293. -/
def iterations (X Y : Nat) : List (Nat × Nat) := (List.range X).flatMap (fun x => (List.range Y).map (fun y => (x, y)))

/-- `transpose`, fcn_gate_library.hpp:287-300. -/
def transpose (empty : T) (g : Gate X Y T) : Option (Gate X Y T) :=
  (iterations X Y).foldlM (fun trans p => (g.get p.1 p.2).bind (trans.set p.2 p.1)) (emptyGate empty)

/-- `reverse_columns`, fcn_gate_library.hpp:307-314. -/
def reverseColumns (g : Gate X Y T) : Gate X Y T := fun i j => g i j.rev

/-- `reverse_rows`, fcn_gate_library.hpp:321-328. -/
def reverseRows (g : Gate X Y T) : Gate X Y T := fun i j => g i.rev j

/-- `rotate_90`, fcn_gate_library.hpp:192-195. -/
def rotate90 (empty : T) (g : Gate X Y T) : Option (Gate X Y T) := (transpose empty g).map reverseColumns

/-- `rotate_180`, fcn_gate_library.hpp:202-205. -/
def rotate180 (g : Gate X Y T) : Gate X Y T := reverseColumns (reverseRows g)

/-- `rotate_270`, fcn_gate_library.hpp:212-215. -/
def rotate270 (empty : T) (g : Gate X Y T) : Option (Gate X Y T) := transpose empty (reverseColumns g)

/-- `merge`, fcn_gate_library.hpp:223-242. -/
def merge (empty : T) (isEmpty : T → Bool) (gates : List (Gate X Y T)) : Option (Gate X Y T) :=
  (iterations X Y).foldlM
    (fun merged p => gates.foldlM
      (fun merged g => (g.get p.1 p.2).bind (fun v => if isEmpty v then some merged else merged.set p.1 p.2 v)) merged)
    (emptyGate empty)

/-- `mark_cell`, fcn_gate_library.hpp:251-260. -/
def markCell (g : Gate X Y T) (px py : Nat) (mark : T) : Option (Gate X Y T) := g.set py px mark

end Verif.Library
