import Mathlib.Data.List.Basic

/-!
# Model of `algorithms/graph/graph_coloring.hpp`

Vertices and colors are natural numbers. The SAT solver is outside of the model: an arbitrary function that decides one
instance after another; what is assumed of it is `Exact` (ColoringSpec.lean). The heuristic engines (the graph-coloring
library of Brian Crites) are outside of the model as well: whatever coloring they deliver is an argument.
-/
namespace Verif.Graphs

/-- The undirected graph that is colored (`graph/undirected_graph`, an external container): its vertices and edges in the
order in which they are visited, each edge once. The containers are hash tables, so any order occurs. -/
structure Graph where
  vertices : List Nat
  edges : List (Nat × Nat)

/-- `begin_adjacent(v)` … `end_adjacent(v)`. -/
def Graph.adjacent (g : Graph) (v : Nat) : List Nat :=
  g.edges.filterMap fun e => if e.1 = v then some e.2 else if e.2 = v then some e.1 else none

/-- graph_coloring.hpp:89-107. -/
inductive Tactic
  | ascending
  | descending
  | binary

/-- `determine_vertex_coloring_sat_params`, graph_coloring.hpp:115-134, without the choice of the solver. -/
structure SatParams where
  tactic : Tactic
  cliques : List (List Nat)
  frequency : Bool

/-- A literal: the variable `{v, c}` ("vertex `v` has color `c`") and its polarity. -/
structure Lit where
  v : Nat
  c : Nat
  pos : Bool
deriving DecidableEq

/-- A clause, as added by `add_clause`, graph_coloring.hpp:427-488. -/
abbrev Clause := List Lit

/-- A truth assignment, as returned by `get_model`. -/
abbrev Model := Nat → Nat → Bool

/-- The truth value of a literal (external solver). -/
def Lit.holds (a : Model) (l : Lit) : Bool := a l.v l.c == l.pos
/-- The truth value of a clause (external solver). -/
def Clause.holds (a : Model) (cl : Clause) : Bool := cl.any (Lit.holds a)

/-- `instance->variables[{v, c}]`, graph_coloring.hpp:399-407, 424: a missing entry is created by `operator[]` with the value 0,
the number of the variable that was created first. -/
def Graph.lit (g : Graph) (k v c : Nat) (pos : Bool) : Lit :=
  if g.vertices.contains v && decide (c < k) then ⟨v, c, pos⟩ else ⟨g.vertices.headD 0, 0, pos⟩

/-- graph_coloring.hpp:427-445. -/
def atLeastOne (g : Graph) (k : Nat) : List Clause :=
  g.vertices.map fun v => (List.range k).map fun c => g.lit k v c true

/-- graph_coloring.hpp:447-468. -/
def atMostOne (g : Graph) (k : Nat) : List Clause :=
  (List.range k).flatMap fun c1 => (List.range' (c1 + 1) (k - (c1 + 1))).flatMap fun c2 =>
    g.vertices.map fun v => [g.lit k v c1 false, g.lit k v c2 false]

/-- graph_coloring.hpp:470-488. -/
def excludeIdentical (g : Graph) (k : Nat) : List Clause :=
  g.edges.flatMap fun e => (List.range k).map fun c => [g.lit k e.1 c false, g.lit k e.2 c false]

/-- `std::max_element(c1.size() < c2.size())`, graph_coloring.hpp:215-216: the first clique of maximal size. -/
def largestClique : List (List Nat) → Option (List Nat)
  | [] => none
  | c :: cs => some (cs.foldl (fun best d => if best.length < d.length then d else best) c)

/-- `q`, graph_coloring.hpp:217-224. -/
def lowerBound (cliques : List (List Nat)) : Nat :=
  match largestClique cliques with
  | none => 1
  | some c => if c.length ≠ 0 then c.length else 1

/-- The clauses of `pre_assign_largest_clique`, graph_coloring.hpp:528-577, and the vertices it puts first. -/
def preAssign (g : Graph) (cliques : List (List Nat)) (k : Nat) : List Clause × List Nat :=
  match largestClique cliques with
  | some (v :: vs) =>
    (((v :: vs).take (min k (lowerBound cliques))).zipIdx.map fun e => [g.lit k e.1 e.2 true],
      (v :: vs).take (min k (lowerBound cliques)))
  | _ =>
    match g.vertices with
    | [] => ([], [])
    | v :: _ =>
      match g.adjacent v with
      | [] => ([[g.lit k v 0 true]], [v])
      | w :: _ => ([[g.lit k v 0 true], [g.lit k w 1 true]], [v, w])

/-- `clique_first_ordering`, graph_coloring.hpp:578-590. -/
def ordering (g : Graph) (first : List Nat) : List Nat :=
  g.vertices.foldl (fun o v => if o.contains v then o else o ++ [v]) first

/-- `transform_solution_to_lexicographical_minimum`, graph_coloring.hpp:598-631. -/
def lexMin (g : Graph) (k : Nat) (ord : List Nat) : List Clause :=
  ord.zipIdx.flatMap fun v1 => (List.range' 1 (k - 1)).map fun c1 =>
    g.lit k v1.1 c1 false ::
      (ord.take (v1.2 + 1)).flatMap fun v2 => (List.range' (c1 - 1) (k - (c1 - 1))).map fun c2 => g.lit k v2 c2 true

/-- `color_frequency_equal_to_largest_clique_size`, graph_coloring.hpp:490-520: some color occurs in every clique. The auxiliary
variables that `add_tseytin_or` and `add_tseytin_and` introduce are determined by the others and left out. -/
def frequencyHolds (g : Graph) (cliques : List (List Nat)) (k : Nat) (a : Model) : Bool :=
  (List.range k).any fun c => cliques.all fun cl => cl.any fun v => (g.lit k v c true).holds a

/-- The clauses of `check_k_coloring`, graph_coloring.hpp:227-234, 640-644. -/
def clauses (g : Graph) (p : SatParams) (k : Nat) : List Clause :=
  atLeastOne g k ++ atMostOne g k ++ excludeIdentical g k ++ (preAssign g p.cliques k).1 ++
    lexMin g k (ordering g (preAssign g p.cliques k).2)

/-- The instance that `check_k_coloring(k)` hands to the solver, graph_coloring.hpp:227-248. -/
def Instance (g : Graph) (p : SatParams) (k : Nat) (a : Model) : Prop :=
  (∀ cl ∈ clauses g p k, cl.holds a = true) ∧ (p.frequency = true → frequencyHolds g p.cliques k a = true)

/-- `check_sat`: a satisfying assignment, or `none` for "unsatisfiable". -/
abbrev Solver := Nat → Option Model

/-- The result of a search: `std::nullopt`; an instance together with its number of colors; the value-initialized pair
`{0, nullptr}`; or a loop that goes on with the wrapped-around number of colors `2^64 - 1`. -/
inductive Found
  | nothing
  | sat (k : Nat) (a : Model)
  | null
  | wrapped

/-- `determine_min_coloring_with_linearly_ascending_search`, graph_coloring.hpp:250-261, from `k` on with `n` values left. -/
def ascend (solve : Solver) : Nat → Nat → Found
  | 0, _ => .nothing
  | n + 1, k =>
    match solve k with
    | some a => .sat k a
    | none => ascend solve n (k + 1)

/-- `determine_min_coloring_with_linearly_descending_search`, graph_coloring.hpp:263-280; `recent` is
`most_recent_sat_instance`. -/
def descend (solve : Solver) (q : Nat) (recent : Found) : Nat → Found
  | 0 =>
    match solve 0 with
    | none => recent
    | some a => if q - 1 ≤ 0 then .wrapped else .sat 0 a
  | k + 1 =>
    match solve (k + 1) with
    | none => recent
    | some a => if q - 1 ≤ k then descend solve q (.sat (k + 1) a) k else .nothing

/-- The loop of `determine_min_coloring_with_binary_search` that doubles `h`, graph_coloring.hpp:286-304; the flag tells whether
`h` was found satisfiable. `n` is the number of vertices; `fuel` bounds the iterations. -/
def double (solve : Solver) (n : Nat) : Nat → Nat → Nat × Option Model
  | 0, h => (h, none)
  | fuel + 1, h =>
    if h < n + 1 then
      match solve h with
      | some a => (h, some a)
      | none => double solve n fuel (h * 2)
    else (h, none)

/-- `std::ranges::partition_point` on `len` consecutive numbers starting with `first`, graph_coloring.hpp:312-324 (libstdc++: halve
the length). -/
def partitionPoint (solve : Solver) : Nat → Nat → Nat → Found → Found
  | 0, _, _, recent => recent
  | fuel + 1, first, len, recent =>
    if len = 0 then recent
    else
      let half := len / 2
      match solve (first + half) with
      | some a => partitionPoint solve fuel first half (.sat (first + half) a)
      | none => partitionPoint solve fuel (first + half + 1) (len - half - 1) recent

/-- `determine_min_coloring_with_binary_search`, graph_coloring.hpp:282-327. -/
def binary (solve : Solver) (n q : Nat) : Found :=
  match double solve n (n + 1) q with
  | (h, some a) => if h = q then .sat h a else partitionPoint solve (h / 2 + 1) (h / 2) (h / 2 + 1) (.sat h a)
  | (h, none) => partitionPoint solve (h / 2 + 1) (h / 2) (h / 2 + 1) .nothing

/-- The dispatch of `color`, graph_coloring.hpp:331-350; the loop conditions of 252 and 267 are evaluated here for the first
iteration. -/
def search (g : Graph) (p : SatParams) (solve : Solver) : Found :=
  let q := lowerBound p.cliques
  let n := g.vertices.length
  match p.tactic with
  | .ascending => ascend solve (n + 1 - q) q
  | .descending => if q - 1 ≤ n then descend solve q .null n else .nothing
  | .binary => binary solve n q

/-- A coloring with the statistics of `determine_vertex_coloring_stats`, graph_coloring.hpp:172-194. -/
structure Colored where
  coloring : List (Nat × Nat)
  chromatic : Nat
  mostFrequent : Nat
  colorFrequency : Nat
deriving DecidableEq

/-- The entry of `v`, if there is one. -/
def Colored.at (r : Colored) (v : Nat) : Option Nat := r.coloring.lookup v

/-- graph_coloring.hpp:669-679: the color painted last. -/
def paint (k : Nat) (a : Model) (v : Nat) : Option Nat := ((List.range k).filter fun c => a v c).getLast?

/-- `max_element` on pairs of a color and its frequency: the first one of maximal frequency. -/
def mostFrequent : List (Nat × Nat) → Option (Nat × Nat)
  | [] => none
  | c :: cs => some (cs.foldl (fun best d => if best.2 < d.2 then d else best) c)

/-- `extract_vertex_coloring`, graph_coloring.hpp:656-691. `order` is the order in which the hash table of the frequencies is
visited. -/
def extract (g : Graph) (order : List (Nat × Nat) → List (Nat × Nat)) (k : Nat) (a : Model) : Colored :=
  let freqs := (List.range k).filterMap fun c =>
    let n := (g.vertices.filter fun v => a v c).length
    if n = 0 then none else some (c, n)
  let best := (mostFrequent (order freqs)).getD (0, 0)
  { coloring := g.vertices.filterMap fun v => (paint k a v).map fun c => (v, c)
    chromatic := k
    mostFrequent := best.1
    colorFrequency := best.2 }

/-- The outcome of a call: it crashes or never returns, it returns `std::nullopt`, or it returns a coloring. -/
inductive Outcome (α : Type)
  | broken
  | nothing
  | returned (r : α)
deriving DecidableEq

/-- `color`, graph_coloring.hpp:329-361; `get_model` dereferences the null pointer. -/
def satColor (g : Graph) (p : SatParams) (order : List (Nat × Nat) → List (Nat × Nat)) (solve : Solver) : Outcome Colored :=
  match search g p solve with
  | .nothing => .nothing
  | .sat k a => .returned (extract g order k a)
  | .null => .broken
  | .wrapped => .broken

/-- What a heuristic engine returns: `color()` and `get_num_colors()`. -/
structure Heuristic where
  coloring : List (Nat × Nat)
  colors : Nat

/-- `translate_to_vertex_coloring`, graph_coloring.hpp:893-924, and 966; a color beyond `get_num_colors()` is written out of bounds.
The conversion of vertex indices to strings and back is left out. -/
def translate (h : Heuristic) : Outcome Colored :=
  if h.coloring.all fun e => decide (e.2 < h.colors) then
    let best := (mostFrequent ((List.range h.colors).map fun c => (c, (h.coloring.filter fun e => e.2 == c).length))).getD (0, 0)
    .returned { coloring := h.coloring, chromatic := h.colors, mostFrequent := best.1, colorFrequency := best.2 }
  else .broken

/-- `is_valid_vertex_coloring`, graph_coloring.hpp:980-997; `at` throws in a `noexcept` function if a vertex is missing. -/
def isValid (g : Graph) (r : Colored) : Outcome Bool :=
  if r.coloring.length ≠ g.vertices.length then .returned false
  else if g.vertices.any fun v => (r.at v).isNone then .broken
  else .returned (!g.vertices.any fun v => (g.adjacent v).any fun w => r.at v == r.at w)

/-- `run`, graph_coloring.hpp:705-779, without the verification: SAT if `sat` is given, otherwise a heuristic engine; `heuristic`
is also what MCS returns when SAT found nothing. -/
def determineColoring (g : Graph) (sat : Option SatParams) (order : List (Nat × Nat) → List (Nat × Nat)) (solve : Solver)
    (heuristic : Heuristic) : Outcome Colored :=
  match sat with
  | none => translate heuristic
  | some p =>
    match satColor g p order solve with
    | .nothing => translate heuristic
    | r => r

end Verif.Graphs
