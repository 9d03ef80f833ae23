import Verif.Graphs.Coloring

/-!
# Specification: proper colorings
-/
namespace Verif.Graphs

/-- The vertices are distinct, and an edge joins two different ones of them. -/
structure Graph.WF (g : Graph) : Prop where
  nodup : g.vertices.Nodup
  ends : ∀ e ∈ g.edges, e.1 ∈ g.vertices ∧ e.2 ∈ g.vertices ∧ e.1 ≠ e.2

/-- Two vertices are joined by an edge. -/
def Graph.Adj (g : Graph) (v w : Nat) : Prop := (v, w) ∈ g.edges ∨ (w, v) ∈ g.edges

/-- The vertices of the list are distinct and any two of them are joined. -/
def IsClique (g : Graph) (cl : List Nat) : Prop :=
  (∀ v ∈ cl, v ∈ g.vertices) ∧ cl.Nodup ∧ ∀ v ∈ cl, ∀ w ∈ cl, v ≠ w → g.Adj v w

/-- A proper coloring with the colors `0, …, k - 1`. -/
def Proper (g : Graph) (k : Nat) (f : Nat → Nat) : Prop :=
  (∀ v ∈ g.vertices, f v < k) ∧ ∀ v ∈ g.vertices, ∀ w ∈ g.vertices, g.Adj v w → f v ≠ f w

/-- Some color occurs in every clique. -/
def Throughout (cliques : List (List Nat)) (k : Nat) (f : Nat → Nat) : Prop :=
  ∃ c, c < k ∧ ∀ cl ∈ cliques, ∃ v ∈ cl, f v = c

/-- What is asked of a coloring with `k` colors: it is proper, and with `clique_size_color_frequency` some color occurs in every clique. -/
def Wanted (g : Graph) (p : SatParams) (k : Nat) (f : Nat → Nat) : Prop :=
  Proper g k f ∧ (p.frequency = true → Throughout p.cliques k f)

/-- The solver answers correctly: its models satisfy the instance, and it says "unsatisfiable" only if there is none. -/
def Exact (g : Graph) (p : SatParams) (solve : Solver) : Prop :=
  (∀ k a, solve k = some a → Instance g p k a) ∧ ∀ k, solve k = none → ∀ a, ¬ Instance g p k a

/-- The result paints every vertex, with the color `f` says. -/
def Paints (g : Graph) (r : Colored) (f : Nat → Nat) : Prop :=
  r.coloring = g.vertices.map fun v => (v, f v)

/-- How many vertices have the color `c`. -/
def count (g : Graph) (f : Nat → Nat) (c : Nat) : Nat := (g.vertices.filter fun v => f v == c).length

/-- An independent transversal: one vertex of every clique, no two of them joined. -/
def Transversal (g : Graph) (cliques : List (List Nat)) (t : List Nat) : Prop :=
  List.Forall₂ (fun cl v => v ∈ cl) cliques t ∧ ∀ v ∈ t, ∀ w ∈ t, ¬ g.Adj v w

end Verif.Graphs
