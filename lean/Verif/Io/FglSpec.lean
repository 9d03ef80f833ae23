import Verif.Io.Fgl
import Verif.GateLevel.Lemmas
import Verif.PhysicalDesign.LayoutFn
import Mathlib.Logic.Relation

/-!
# Specification of writing and reading FGL files
-/
namespace Verif.Fgl

open Verif.Layouts Verif.Clocking Verif.GateLevel Verif.TruthTables

/-- The tiles a node reads. -/
def Lyt.reads (tp : Topo) (L : Lyt) (n : Nat) : List Coord := L.st.fanins L.dim tp L.cs true n

/-- Node `a` is read by node `b`. -/
def Feeds (tp : Topo) (L : Lyt) (a b : Nat) : Prop := b ∉ L.st.inputs ∧ ∃ c ∈ L.reads tp b, L.st.getNode c = a

/-- What is needed to compute a node. -/
def Needs (tp : Topo) (L : Lyt) (b a : Nat) : Prop := Relation.ReflTransGen (Feeds tp L) a b

/-- The order in which `mockturtle::topo_view` (external library, modelled after its documented behaviour) visits the gates: those
the outputs need, each after what it reads; nothing is visited before an output unless it or an earlier output needs it. -/
structure TopoView (tp : Topo) (L : Lyt) (order : List Nat) : Prop where
  nodup : order.Nodup
  mem : ∀ n, n ∈ order ↔ n ∉ L.st.inputs ∧ 2 ≤ n ∧ ∃ p ∈ L.st.outputs, Needs tp L (L.st.getNode p) n
  before : ∀ (i n : Nat), order[i]? = some n → ∀ c ∈ L.reads tp n,
    L.st.getNode c ≤ 1 ∨ L.st.getNode c ∈ L.st.inputs ∨ ∃ j < i, order[j]? = some (L.st.getNode c)
  first : ∀ (k : Nat) p (j : Nat), L.st.outputs[k]? = some p → order[j]? = some (L.st.getNode p) → ∀ i ≤ j, ∀ n : Nat, order[i]? = some n →
    ∃ k' ≤ k, ∃ p', L.st.outputs[k']? = some p' ∧ Needs tp L (L.st.getNode p') n

/-- The layouts that survive. -/
structure Writable (tp : Topo) (L : Lyt) (order : List Nat) : Prop where
  /-- The layout is a state of the interface. -/
  wf : WF L.st
  cache : ∃ l, L.cache = layoutCache ++ l
  /-- The inputs are distinct placed buffers with names. -/
  inputs : L.st.inputs.Nodup
  pi : ∀ n ∈ L.st.inputs, (∃ t, t.d = false ∧ L.st.tileNode t = some n) ∧ (L.st.nodes n).fn = 2 ∧ blank (L.name n) = false
  /-- The outputs are distinct placed buffers with names and are no inputs. -/
  outputs : L.st.outputs.Nodup
  po : ∀ p ∈ L.st.outputs, p.d = false ∧ ∃ n, L.st.tileNode p = some n ∧ n ∉ L.st.inputs ∧ (L.st.nodes n).fn = 2 ∧ blank (L.name n) = false
  /-- What is needed is placed, and reads as many tiles, none of them constant, as its function has variables. -/
  gate : ∀ n ∈ order, (∃ t, t.d = false ∧ L.st.tileNode t = some n) ∧ (∀ c ∈ L.reads tp n, c.d = false) ∧
    ∃ f, L.cache.lookup (L.st.nodes n).fn = some f ∧ f.word < 2 ^ 2 ^ f.vars ∧ (L.reads tp n).length = f.vars ∧ 1 ≤ f.vars

/-- `cs'` clocks the tiles of `L` as its own scheme does. -/
structure SameClocks (L : Lyt) (cs' : Scheme) : Prop where
  clocks : cs'.numClocks = L.cs.numClocks
  clock : ∀ t n, t.d = false → L.st.tileNode t = some n → cs'.clock t = L.cs.clock t

/-- Under `cs'`, data still flows along the connections of `L` that are needed. -/
def SameFlow (tp : Topo) (L : Lyt) (order : List Nat) (cs' : Scheme) : Prop :=
  ∀ n ∈ order, ∀ c ∈ L.reads tp n, isIncomingClocked cs' (L.st.getTile n) c = true

/-- `R` is what is left of `L` if the nodes `kept` are kept. -/
structure Kept (tp : Topo) (L R : Lyt) (kept : List Nat) : Prop where
  wf : WF R.st
  title : blank L.title = false → R.title = L.title
  dim : R.dim = L.dim
  /-- The tiles of the kept nodes are occupied, and no others. -/
  occupied : ∀ t, t.d = false → ((∃ k, R.st.tileNode t = some k) ↔ ∃ n ∈ kept, L.st.tileNode t = some n)
  /-- Functions are kept, even under the same literal where the layout defines it. -/
  function : ∀ t n k, t.d = false → L.st.tileNode t = some n → R.st.tileNode t = some k →
    R.cache.lookup (R.st.nodes k).fn = L.cache.lookup (L.st.nodes n).fn ∧ ((L.st.nodes n).fn < 16 → (R.st.nodes k).fn = (L.st.nodes n).fn)
  /-- So are the tiles that are read, in their order. -/
  reads : ∀ t n k, t.d = false → L.st.tileNode t = some n → R.st.tileNode t = some k → n ∉ L.st.inputs → R.reads tp k = L.reads tp n
  /-- And inputs, outputs and their names. -/
  inputs : R.st.inputs.map R.st.getTile = L.st.inputs.map L.st.getTile
  outputs : R.st.outputs.Perm L.st.outputs
  names : ∀ t n k, t.d = false → L.st.tileNode t = some n → R.st.tileNode t = some k → (L.st.isPi n ∨ L.st.isPo n) → R.name k = L.name n

/-- The functions of a layout, given what tables mean. -/
def tabOf (I : Option TT → List Bool → Bool) (L : Lyt) (lit : Nat) : List Bool → Bool := I (L.cache.lookup lit)

end Verif.Fgl
