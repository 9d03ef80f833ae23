import Verif.PhysicalDesign.ColorRouting
import Verif.Paths.YenSpec
import Verif.Graphs.ColoringSpec

/-!
# Specification: joint routings
-/
namespace Verif.PhysicalDesign.ColorRouting

open Verif.Layouts Verif.Clocking Verif.GateLevel Verif.Paths Verif.Graphs

/-- Two wires get in each other's way: they connect the same two tiles, or they share a tile other than their ends. -/
def Clash (p q : Path) : Prop :=
  (p.head? = q.head? ∧ p.getLast? = q.getLast?) ∨ ∃ c, c ∈ inner p ∧ c ∈ inner q

/-- One route for every objective, no two of which clash. -/
def JointRouting (l : RLayout) (objs : List (Coord × Coord)) (sel : List Path) : Prop :=
  List.Forall₂ (fun o p => Route l false o.1 o.2 p) objs sel ∧ sel.Pairwise fun p q => ¬ Clash p q

/-- The hash tables are visited in some order. -/
def Env.Orders (env : Env) : Prop :=
  (∀ l, (env.vertexOrder l).Perm l) ∧ (∀ l, (env.edgeOrder l).Perm l) ∧ ∀ l, (env.frequencyOrder l).Perm l

/-- The heuristic engine delivers a proper coloring of the graph. -/
def ProperHeuristic (g : Graph) (h : Heuristic) : Prop :=
  ∃ f, h.coloring.Perm (g.vertices.map fun v => (v, f v)) ∧ Proper g h.colors f

/-- What is assumed of the engines: the solver is correct, and the heuristics return proper colorings. -/
def Env.Correct (env : Env) (p : Params) (e : Eig) : Prop :=
  env.Orders ∧ ProperHeuristic (e.graph env) env.heuristic ∧
    ∀ sp, coloringParams p e.cliques = some sp → Exact (e.graph env) sp env.solve

/-- `s'` is `s` with the wires `sel` added: on every inner tile of a path there is a new wire whose only fanin is the preceding
tile of the path; the last of them feeds the node on the target; nothing else has changed. -/
structure Wired (s s' : State) (sel : List Path) : Prop where
  segment : ∀ p ∈ sel, ∀ i, i + 2 < p.length → ∃ n, s.size ≤ n ∧ s'.tileNode (p.getD (i + 1) const0) = some n ∧
    (s'.nodes n).fn = 2 ∧ (s'.nodes n).children = [p.getD i const0]
  fed : ∀ n, n < s.size → (s'.nodes n).fn = (s.nodes n).fn ∧
    (s'.nodes n).children = (s.nodes n).children ++
      (sel.filter fun p => s.getNode (p.getLastD const0) == n && decide (2 ≤ n)).map fun p => p.getD (p.length - 2) const0
  untouched : ∀ t : Coord, t.d = false → (∀ p ∈ sel, t ∉ inner p) → s'.tileNode t = s.tileNode t
  ports : s'.inputs = s.inputs ∧ s'.outputs = s.outputs

end Verif.PhysicalDesign.ColorRouting
