import Verif.SidbAnalysis.Bdl
import Mathlib.Logic.Relation

/-!
# What BDL pairs and BDL wires should be
-/
namespace Verif.SidbAnalysis.Bdl

variable {α K : Type} [LinearOrder α] [LinearOrder K]

/-- Any algorithm that sorts pairs of dots by their distance. -/
def SortsByDistance (dist : α → α → K) (sort : List (α × α) → List (α × α)) : Prop :=
  ∀ l, (sort l).Perm l ∧ (sort l).Pairwise fun p q => dist p.1 p.2 ≤ dist q.1 q.2

/-- The two dots of a pair. -/
def Pair.dots (p : Pair α) : List α := [p.upper, p.lower]

/-- A stable pairing of the given dots: pairs of dots with admissible distances, no dot in two pairs, and no two dots
that would both be better off with each other. -/
structure StablePairing (dist : α → α → K) (lo hi : K) (dots : List α) (res : List (Pair α)) : Prop where
  mem : ∀ p ∈ res, p.upper ∈ dots ∧ p.lower ∈ dots
  ordered : ∀ p ∈ res, p.upper < p.lower
  distance : ∀ p ∈ res, lo ≤ dist p.upper p.lower ∧ dist p.upper p.lower ≤ hi
  disjoint : (res.flatMap Pair.dots).Nodup
  stable : ∀ a ∈ dots, ∀ b ∈ dots, a ≠ b → lo ≤ dist a b → dist a b ≤ hi →
    ∃ p ∈ res, (a ∈ p.dots ∨ b ∈ p.dots) ∧ dist p.upper p.lower ≤ dist a b

/-- The pairs are ordered from the top left to the bottom right. -/
def Ascending (res : List (Pair α)) : Prop :=
  res.Pairwise fun p q => p.upper < q.upper ∨ (p.upper = q.upper ∧ p.lower < q.lower)

/-- The layout's cells, primary inputs and primary outputs are those of a cell-level layout. -/
structure Lyt.Ok (L : Lyt α) : Prop where
  nodup : L.cells.Nodup
  pis : L.pis.Nodup
  pos : L.pos.Nodup
  mem_pis : ∀ c, c ∈ L.pis ↔ c ∈ L.cells ∧ L.ty c = .input
  mem_pos : ∀ c, c ∈ L.pos ↔ c ∈ L.cells ∧ L.ty c = .output

/-- Two pairs follow each other: the lower dot of one is close to the upper dot of the other. -/
def Linked (near : α → α → Bool) (p q : Pair α) : Prop :=
  near p.lower q.upper = true ∨ near q.lower p.upper = true

/-- Any two pairs of the wire are connected by a sequence of pairs of the wire each of which follows the other. -/
def Connected (near : α → α → Bool) (w : List (Pair α)) : Prop :=
  ∀ p ∈ w, ∀ q ∈ w, Relation.ReflTransGen (fun a b => a ∈ w ∧ b ∈ w ∧ Linked near a b) p q

end Verif.SidbAnalysis.Bdl
