import Verif.Sidb.GssTree
import Verif.Sidb.GssProps
import Mathlib.Tactic.Ring

/-!
# Invariants of the construction of the ground state space, kept by pruning
-/
namespace Verif.Sidb.Gss

open Verif.Sidb Cluster

/-! ## Sums -/

theorem sum_split {α : Type} [DecidableEq α] {l : List α} {c : α} (hn : l.Nodup) (hc : c ∈ l) (f : α → Rat) :
    (l.map f).sum = f c + ((l.filter fun o => o ≠ c).map f).sum := by
  have h1 : l.Perm (c :: l.filter fun o => o ≠ c) := by
    have := List.perm_cons_erase hc
    rw [hn.erase_eq_filter] at this
    refine this.trans ?_
    rw [List.filter_congr (q := fun o => decide (o ≠ c))]
    intro x _
    by_cases h : x = c <;> simp [h]
  rw [(h1.map f).sum_eq, List.map_cons, List.sum_cons]

theorem sum_map_congr {α : Type} {l : List α} {f g : α → Rat} (h : ∀ x ∈ l, f x = g x) : (l.map f).sum = (l.map g).sum := by
  rw [List.map_congr_left h]

/-! ## Contributions to the potential -/

/-- The (negated) potential that the SiDBs `l` cause at SiDB `i`, with the external potentials if `i` is among them. -/
def contrib (E : Env) (σ : Nat → Charge) (l : List Nat) (i : Nat) : Rat :=
  (l.map fun j => if j = i then selfPot E i else project E j i (σ j)).sum

theorem contrib_append (E : Env) (σ : Nat → Charge) (a b : List Nat) (i : Nat) :
    contrib E σ (a ++ b) i = contrib E σ a i + contrib E σ b i := by simp [contrib]

theorem contrib_perm (E : Env) (σ : Nat → Charge) {a b : List Nat} (h : a.Perm b) (i : Nat) :
    contrib E σ a i = contrib E σ b i := (h.map _).sum_eq

theorem contrib_flatMap (E : Env) (σ : Nat → Charge) (L : List Cluster) (i : Nat) :
    contrib E σ (L.flatMap sidbs) i = (L.map fun c => contrib E σ c.sidbs i).sum := by
  induction L with
  | nil => rfl
  | cons a t ih => rw [List.flatMap_cons, contrib_append, ih, List.map_cons, List.sum_cons]

/-! ## Invariants -/

/-- A composition of a charge state. -/
def Comp (s : State) (c : Cluster) (D : Nat → Prop) (x : ChargeState) (y : Composition) : Prop :=
  y.parts.map Prod.fst = c.children ∧ (∀ q ∈ y.parts, ∃ z ∈ s.space q.1, z.ms = q.2) ∧ sumMs y.parts = x.ms ∧
    ∀ i, D i → y.bounds i = Bounds.sum (y.parts.map fun q => s.complete q.1 q.2 i)

/-- What a single SiDB projects. -/
def leafPot (E : Env) (k j : Nat) (q : Charge) : Rat := if j = k then selfPot E k else project E k j q

/-- A cluster of the clustering. -/
structure Active (E : Env) (P : Params) (s : State) (c : Cluster) : Prop where
  nodup : ((s.space c).map ChargeState.ms).Nodup
  sorted : ∀ i, Sorted (s.projs c i)
  entry : ∀ x ∈ s.space c, ∀ i < E.n, ∃ p ∈ s.projs c i, p.ms = x.ms
  charges : ∀ k, c = .leaf k → ∀ x ∈ s.space c, ∃ q ∈ chargesOf P.base, x.ms = .single q
  pots : ∀ k, c = .leaf k → ∀ j, ∀ p ∈ s.projs c j, ∀ q, p.ms = .single q → p.pot = leafPot E k j q
  comps : c.children ≠ [] → ∀ x ∈ s.space c, (x.comps.map Composition.parts).Nodup ∧
    ∀ y ∈ x.comps, Comp s c (· ∈ c.sidbs) x y ∧ ∀ i, i ∉ c.sidbs → y.bounds i = ⟨0, 0⟩

/-- A cluster below the clustering. -/
structure Frozen (E : Env) (P : Params) (s : State) (d : Cluster) : Prop where
  nodup : ((s.space d).map ChargeState.ms).Nodup
  charges : ∀ k, d = .leaf k → ∀ x ∈ s.space d, ∃ q ∈ chargesOf P.base, x.ms = .single q ∧
    ∀ j < E.n, s.complete d x.ms j = ⟨leafPot E k j q, leafPot E k j q⟩
  comps : d.children ≠ [] → ∀ x ∈ s.space d, (x.comps.map Composition.parts).Nodup ∧
    ∀ y ∈ x.comps, Comp s d (· < E.n) x y
  link : ∀ m i, s.bound d m i = s.complete d m i

/-- The received potentials are those of the other clusters. -/
def RecvOk (s : State) : Prop :=
  ∀ c ∈ s.clustering, ∀ i ∈ c.sidbs, s.recv c i = Bounds.sum ((s.others c).map fun o => s.range o i)

/-- The invariant. -/
structure Inv (E : Env) (P : Params) (top : Cluster) (s : State) : Prop where
  cut : Cut top s.clustering
  recv : RecvOk s
  active : ∀ c ∈ s.clustering, Active E P s c
  frozen : ∀ c ∈ s.clustering, ∀ d ∈ c.strict, Frozen E P s d
  topEmpty : s.clustering ≠ [top] → s.space top = []

/-- The charge space of a cluster has the multiset of a configuration, composed as in the configuration. -/
def Has (σ : Nat → Charge) (s : State) (c : Cluster) : Prop :=
  ∃ x ∈ s.space c, x.ms = msOf σ c.sidbs ∧
    (c.children ≠ [] → ∃ y ∈ x.comps, y.parts = c.children.map fun e => (e, msOf σ e.sidbs))

/-- The projections of a cluster embrace those of a configuration. -/
def Bracket (E : Env) (σ : Nat → Charge) (s : State) (c : Cluster) : Prop :=
  ∀ i < E.n, ∃ p ∈ s.projs c i, ∃ p' ∈ s.projs c i, p.ms = msOf σ c.sidbs ∧ p'.ms = msOf σ c.sidbs ∧
    p.pot ≤ contrib E σ c.sidbs i ∧ contrib E σ c.sidbs i ≤ p'.pot

/-- What is kept of a configuration. -/
structure Sig (E : Env) (σ : Nat → Charge) (s : State) : Prop where
  has : ∀ c ∈ s.clustering, Has σ s c
  bracket : ∀ c ∈ s.clustering, Bracket E σ s c
  fhas : ∀ c ∈ s.clustering, ∀ d ∈ c.strict, Has σ s d
  fbracket : ∀ c ∈ s.clustering, ∀ d ∈ c.strict, ∀ i < E.n,
    (s.complete d (msOf σ d.sidbs) i).lo ≤ contrib E σ d.sidbs i ∧ contrib E σ d.sidbs i ≤ (s.complete d (msOf σ d.sidbs) i).up

/-! ## The potential bounds of a configuration -/

theorem bound_bracket {E : Env} {σ : Nat → Charge} {s : State} {c : Cluster} (hs : ∀ i, Sorted (s.projs c i))
    (hb : Bracket E σ s c) {i : Nat} (hi : i < E.n) :
    (s.bound c (msOf σ c.sidbs) i).lo ≤ contrib E σ c.sidbs i ∧ contrib E σ c.sidbs i ≤ (s.bound c (msOf σ c.sidbs) i).up := by
  obtain ⟨p, hp, p', hp', h1, h2, h3, h4⟩ := hb i hi
  exact ⟨(lowerFor_spec (hs i) hp h1).1.trans h3, h4.trans (upperFor_spec (hs i) hp' h2).1⟩

theorem range_bracket {E : Env} {σ : Nat → Charge} {s : State} {c : Cluster} (hs : ∀ i, Sorted (s.projs c i))
    (hb : Bracket E σ s c) {i : Nat} (hi : i < E.n) :
    (s.range c i).lo ≤ contrib E σ c.sidbs i ∧ contrib E σ c.sidbs i ≤ (s.range c i).up := by
  obtain ⟨p, hp, p', hp', h1, h2, h3, h4⟩ := hb i hi
  exact ⟨(lowest_spec (hs i) hp).1.trans h3, h4.trans (highest_spec (hs i) hp').1⟩

end Verif.Sidb.Gss
