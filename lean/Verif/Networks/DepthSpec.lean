import Verif.Networks.Views
import Mathlib.Logic.Relation

/-!
# Specification of levels, depth and critical paths
-/
namespace Verif.Views

/-- A network: constants and inputs have no fanins, fanins and outputs are nodes, and there are no cycles, that is, the nodes can be
numbered so that fanins come first. -/
structure Net.WF (N : Net) : Prop where
  source : ∀ n, N.isConst n = true ∨ N.isCi n = true → N.fanins n = []
  fanins : ∀ n < N.size, ∀ f ∈ N.fanins n, f.1 < N.size
  pos : ∀ p ∈ N.pos, p.1 < N.size
  acyclic : ∃ num : Nat → Nat, (∀ n < N.size, num n < N.size) ∧ ∀ n < N.size, ∀ f ∈ N.fanins n, num f.1 < num n

/-- A node that a node depends on. -/
def Needs (N : Net) (n m : Nat) : Prop := Relation.ReflTransGen (fun a b => ∃ f ∈ N.fanins a, f.1 = b) n m

/-- A node that an output depends on. -/
def Used (N : Net) (n : Nat) : Prop := ∃ p ∈ N.pos, Needs N p.1 n

section
variable (N : Net) (ps : Params)

/-- What the first node of a path contributes. -/
def sourceCost (n : Nat) : Nat := if N.isConst n then 0 else if N.isCi n then (if ps.piCost then ps.cost n - 1 else 0) else ps.cost n

/-- There is a path from a node without fanins to `n` with the given cost. -/
inductive PathTo : Nat → Nat → Prop
  | source (n : Nat) : N.fanins n = [] → PathTo n (sourceCost N ps n)
  | step (n : Nat) (f : Nat × Bool) (w : Nat) : f ∈ N.fanins n → PathTo f.1 w → PathTo n (w + ps.compl f.2 + ps.cost n)

/-- There is a path from `n` to `p`, with the given cost apart from what it costs to get to `n`. -/
inductive PathFrom (p : Nat) : Nat → Nat → Prop
  | here : PathFrom p p 0
  | step (m : Nat) (f : Nat × Bool) (w : Nat) : PathFrom p m w → f ∈ N.fanins m → PathFrom p f.1 (w + ps.compl f.2 + ps.cost m)

/-- `l` is the cost of a most expensive path to `n`. -/
def IsLevel (n l : Nat) : Prop := PathTo N ps n l ∧ ∀ w, PathTo N ps n w → w ≤ l

/-- `d` is the cost of a most expensive path to an output; 0 if there are no outputs. -/
def IsDepth (d : Nat) : Prop :=
  (N.pos = [] ∧ d = 0 ∨ ∃ p ∈ N.pos, ∃ w, PathTo N ps p.1 w ∧ d = w + ps.compl p.2) ∧ ∀ p ∈ N.pos, ∀ w, PathTo N ps p.1 w → w + ps.compl p.2 ≤ d

/-- `n` is on a most expensive path to an output. -/
def OnLongest (d n : Nat) : Prop := ∃ p ∈ N.pos, ∃ w w', PathTo N ps n w ∧ PathFrom N ps p.1 n w' ∧ w + w' + ps.compl p.2 = d

end

end Verif.Views
