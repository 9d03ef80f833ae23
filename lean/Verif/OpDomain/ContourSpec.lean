import Verif.OpDomain.Contour
import Verif.OpDomain.Spec

/-! # Specification of contour tracing -/
namespace Verif.OpDomain

/-- A point of the grid that is operational. -/
def OpPt (rs : List Range) (op : PP → Bool) (p : SP) : Prop := InGrid rs p ∧ OpAt rs op p

/-- Connected by operational points. -/
inductive Conn (rs : List Range) (op : PP → Bool) (p : SP) : SP → Prop
  | refl : Conn rs op p p
  | step {q r} : Conn rs op p q → Near q r → OpPt rs op r → Conn rs op p r

/-- At the edge of the parameter range. -/
def Edge (rs : List Range) (p : SP) : Prop := ∃ d i : Nat, (p : List Nat)[d]? = some i ∧ (i = 0 ∨ ∃ r, rs[d]? = some r ∧ i + 1 = numIndices r)

/-- An operational point at the edge of the range or next to a non-operational one. -/
def Border (rs : List Range) (op : PP → Bool) (p : SP) : Prop :=
  OpPt rs op p ∧ (Edge rs p ∨ ∃ q, InGrid rs q ∧ Near p q ∧ ¬ OpAt rs op q)

/-- Connected by points of the border. -/
inductive BConn (rs : List Range) (op : PP → Bool) (p : SP) : SP → Prop
  | refl : BConn rs op p p
  | step {q r} : BConn rs op p q → Near q r → Border rs op r → BConn rs op p r

/-- No operational region has a hole: its border is connected. -/
def HoleFree (rs : List Range) (op : PP → Bool) : Prop :=
  ∀ a b, Border rs op a → Border rs op b → Conn rs op a b → BConn rs op a b

/-- The domain knows the status of the point. -/
def Knows (rs : List Range) (op : PP → Bool) (dom : Dom) (p : SP) : Prop := (toPP rs p, op (toPP rs p)) ∈ dom

/-- The domain holds only points of the grid, once each, with their status. -/
def Sound (rs : List Range) (op : PP → Bool) (dom : Dom) : Prop :=
  ∃ ps : List SP, ps.Nodup ∧ (∀ p ∈ ps, InGrid rs p) ∧ dom = ps.map (fun p => (toPP rs p, op (toPP rs p)))

/-- The domain knows the border of the operational region of `p` and all points next to it. -/
def Traced (rs : List Range) (op : PP → Bool) (dom : Dom) (p : SP) : Prop :=
  ∀ b, Border rs op b → Conn rs op p b → Knows rs op dom b ∧ ∀ q, InGrid rs q → Near b q → Knows rs op dom q

end Verif.OpDomain
