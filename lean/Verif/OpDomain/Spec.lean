import Verif.OpDomain.Model
import Mathlib.Data.List.Forall2

/-! # Specification of operational domains: the grid of parameter points, its neighbourhood and the regions of operational points -/
namespace Verif.OpDomain

/-- A point of the grid: one index per dimension, within its range. -/
def InGrid (rs : List Range) (p : SP) : Prop := List.Forall₂ (fun i r => i < numIndices r) p rs

/-- The ranges the entry points accept, with steps no finer than the resolution of parameter points. -/
structure Sweep (rs : List Range) : Prop where
  order : ∀ r ∈ rs, r.min ≤ r.max
  step : ∀ r ∈ rs, margin ≤ r.step

/-- Different points that differ by at most one step in each dimension. -/
def Near (p q : SP) : Prop := p ≠ q ∧ List.Forall₂ (fun a b => a ≤ b + 1 ∧ b ≤ a + 1) p q

/-- Operational at a point of the grid. -/
def OpAt (rs : List Range) (op : PP → Bool) (p : SP) : Prop := op (toPP rs p) = true

/-- The operational points connected to an operational sample via operational points. -/
inductive Region (rs : List Range) (op : PP → Bool) (samples : List SP) : SP → Prop
  | sample {p} : p ∈ samples → OpAt rs op p → Region rs op samples p
  | grow {p q} : Region rs op samples p → Near p q → InGrid rs q → OpAt rs op q → Region rs op samples q

/-- The points flood fill is to determine: the samples, the regions they hit, and a border one point wide. -/
def Wanted (rs : List Range) (op : PP → Bool) (samples : List SP) (p : SP) : Prop :=
  p ∈ samples ∨ Region rs op samples p ∨ ∃ r, Region rs op samples r ∧ Near r p

/-- The domain consists of exactly the points of the grid with the property `P`, once each, with their status. -/
def Exactly (rs : List Range) (op : PP → Bool) (P : SP → Prop) (dom : Dom) : Prop :=
  ∃ ps : List SP, ps.Nodup ∧ (∀ p, p ∈ ps ↔ InGrid rs p ∧ P p) ∧ dom.Perm (ps.map (fun p => (toPP rs p, op (toPP rs p))))

end Verif.OpDomain
