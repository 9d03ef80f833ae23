import Verif.PhysicalDesign.OrthoWire

/-!
# Rows and columns reserved for wires
-/
namespace Verif.PhysicalDesign.Ortho

open Verif.Layouts

/-- A wire can be laid from `p` to the east. -/
def EastClaim (G : Grid) (p : Coord) : Prop := ∀ x, p.x < x → G x p.y = .none ∨ G x p.y = .V
/-- A wire can be laid from `p` to the south. -/
def SouthClaim (G : Grid) (p : Coord) : Prop := p.x ≠ 0 ∧ ∀ y, p.y < y → G p.x y = .none ∨ G p.x y = .H

/-- The effect of placing a gate on `t`, with wires from the east of the positions `cE` and the south of the positions `cS`. -/
structure Eff (G G' : Grid) (P : Coord → Prop) (t : Coord) (cE cS : Coord → Prop) (lx' ly' : Nat) : Prop where
  mono : ∀ x y, G x y ≠ .none → G' x y ≠ .none
  monoX : ∀ x y, G x y = .X → G' x y = .X
  east : ∀ p, P p → EastClaim G p → ¬ cE p → EastClaim G' p
  south : ∀ p, P p → SouthClaim G p → ¬ cS p → SouthClaim G' p
  fresh : G t.x t.y = .none
  newX : G' t.x t.y = .X
  newE : EastClaim G' t
  newS : SouthClaim G' t
  usedE : ∀ p, P p → cE p → G' (p.x + 1) p.y ≠ .none
  usedS : ∀ p, P p → cS p → G' p.x (p.y + 1) ≠ .none
  front : ∀ x y, G' x y ≠ .none → x < lx' ∧ y < ly'

section
variable {G : Grid} {P : Coord → Prop} {lx ly : Nat}
variable (hP : ∀ p, P p → G p.x p.y = .X ∧ p.z = 0 ∧ p.d = false)
variable (hF : ∀ x y, G x y ≠ .none → x < lx ∧ y < ly)

include hP in
theorem east_unique {p q : Coord} (hp : P p) (hq : P q) (h1 : EastClaim G p) (h2 : EastClaim G q) (hy : p.y = q.y) : p = q := by
  obtain ⟨px, pz, pd⟩ := hP p hp
  obtain ⟨qx, qz, qd⟩ := hP q hq
  have hx : p.x = q.x := by
    rcases Nat.lt_trichotomy p.x q.x with h | h | h
    · rcases h1 q.x h with h' | h' <;> rw [hy, qx] at h' <;> cases h'
    · exact h
    · rcases h2 p.x h with h' | h' <;> rw [← hy, px] at h' <;> cases h'
  cases p; cases q
  simp_all

include hP in
theorem south_unique {p q : Coord} (hp : P p) (hq : P q) (h1 : SouthClaim G p) (h2 : SouthClaim G q) (hx : p.x = q.x) : p = q := by
  obtain ⟨px, pz, pd⟩ := hP p hp
  obtain ⟨qx, qz, qd⟩ := hP q hq
  have hy : p.y = q.y := by
    rcases Nat.lt_trichotomy p.y q.y with h | h | h
    · rcases h1.2 q.y h with h' | h' <;> rw [hx, qx] at h' <;> cases h'
    · exact h
    · rcases h2.2 p.y h with h' | h' <;> rw [← hx, px] at h' <;> cases h'
  cases p; cases q
  simp_all

include hP hF

theorem front_of {p : Coord} (hp : P p) : p.x < lx ∧ p.y < ly := hF p.x p.y (by rw [(hP p hp).1]; simp)

theorem eff_oneE {p : Coord} (hp : P p) (hc : EastClaim G p) (hl : 0 < lx) :
    Eff G (put (hrow G p.y (p.x + 1) lx) lx p.y) P ⟨lx, p.y, 0, false⟩ (· = p) (fun _ => False) (lx + 1) ly := by
  have hpf := front_of hP hF hp
  have hpX := (hP p hp).1
  have hfx : ∀ y, G lx y = .none := fun y => by
    by_contra h
    have := (hF lx y h).1
    omega
  have hou : ∀ q, P q → EastClaim G q → q ≠ p → q.y ≠ p.y := fun q hq h hne e => hne (east_unique hP hq hp h hc e)
  refine ⟨?_, ?_, ?_, ?_, ?_, ?_, ?_, ?_, ?_, ?_, ?_⟩
  · intro x y h; simp only [put, hrow]; grind
  · intro x y h; simp only [put, hrow]; grind
  · intro q hq h hne x hx
    have := hou q hq h hne
    have := h x hx
    simp only [put, hrow]; grind
  · intro q hq h _
    have hqf := front_of hP hF hq
    refine ⟨h.1, fun y hy => ?_⟩
    have := h.2 y hy
    have := hc q.x
    simp only [put, hrow]; grind
  · exact hfx _
  · simp [put]
  · intro x hx
    have := hF x p.y
    simp only [put, hrow] at *; grind
  · refine ⟨by simp only; omega, fun y hy => ?_⟩
    have := hfx y
    simp only [put, hrow] at *; grind
  · rintro q hq rfl
    simp only [put, hrow]; grind
  · rintro q hq h; exact absurd h id
  · intro x y h
    have := hF x y
    simp only [put, hrow] at *; grind

theorem eff_oneS {p : Coord} (hp : P p) (hc : SouthClaim G p) :
    Eff G (put (vcol G p.x (p.y + 1) ly) p.x ly) P ⟨p.x, ly, 0, false⟩ (fun _ => False) (· = p) lx (ly + 1) := by
  have hpf := front_of hP hF hp
  have hpX := (hP p hp).1
  have hfx : ∀ x, G x ly = .none := fun x => by
    by_contra h
    have := (hF x ly h).2
    omega
  have hou : ∀ q, P q → SouthClaim G q → q ≠ p → q.x ≠ p.x := fun q hq h hne e => hne (south_unique hP hq hp h hc e)
  refine ⟨?_, ?_, ?_, ?_, ?_, ?_, ?_, ?_, ?_, ?_, ?_⟩
  · intro x y h; simp only [put, vcol]; grind
  · intro x y h; simp only [put, vcol]; grind
  · intro q hq h _ x hx
    have hqf := front_of hP hF hq
    have := h x hx
    have := hc.2 q.y
    simp only [put, vcol]; grind
  · intro q hq h hne
    have := hou q hq h hne
    refine ⟨h.1, fun y hy => ?_⟩
    have := h.2 y hy
    simp only [put, vcol]; grind
  · exact hfx _
  · simp [put]
  · intro x hx
    have := hfx x
    simp only [put, vcol] at *; grind
  · refine ⟨hc.1, fun y hy => ?_⟩
    have := hF p.x y
    simp only [put, vcol] at *; grind
  · rintro q hq h; exact absurd h id
  · rintro q hq rfl
    simp only [put, vcol]; grind
  · intro x y h
    have := hF x y
    simp only [put, vcol] at *; grind

theorem eff_twoE {p q : Coord} (hp : P p) (hq : P q) (hc : EastClaim G p) (hc' : EastClaim G q) (hy : p.y < q.y) (hl : 0 < lx) :
    Eff G (put (hrow (vcol (hrow G p.y (p.x + 1) (lx + 1)) lx (p.y + 1) q.y) q.y (q.x + 1) lx) lx q.y) P ⟨lx, q.y, 0, false⟩
      (fun c => c = p ∨ c = q) (fun _ => False) (lx + 1) ly := by
  have hpf := front_of hP hF hp
  have hpX := (hP p hp).1
  have hqf := front_of hP hF hq
  have hqX := (hP q hq).1
  have hfx : ∀ y, G lx y = .none := fun y => by
    by_contra h
    have := (hF lx y h).1
    omega
  have hou : ∀ r, P r → EastClaim G r → r ≠ p → r.y ≠ p.y := fun r hr h hne e => hne (east_unique hP hr hp h hc e)
  have hou' : ∀ r, P r → EastClaim G r → r ≠ q → r.y ≠ q.y := fun r hr h hne e => hne (east_unique hP hr hq h hc' e)
  refine ⟨?_, ?_, ?_, ?_, ?_, ?_, ?_, ?_, ?_, ?_, ?_⟩
  · intro x y h; simp only [put, hrow, vcol]; grind
  · intro x y h; simp only [put, hrow, vcol]; grind
  · intro r hr h hne x hx
    have := hou r hr h (fun e => hne (.inl e))
    have := hou' r hr h (fun e => hne (.inr e))
    have := h x hx
    have := hfx r.y
    simp only [put, hrow, vcol]; grind
  · intro r hr h _
    have hrf := front_of hP hF hr
    refine ⟨h.1, fun y hy => ?_⟩
    have := h.2 y hy
    have := hc r.x
    have := hc' r.x
    simp only [put, hrow, vcol]; grind
  · exact hfx _
  · simp [put]
  · intro x hx
    have := hF x q.y
    simp only [put, hrow, vcol] at *; grind
  · refine ⟨by simp only; omega, fun y hy => ?_⟩
    have := hfx y
    simp only [put, hrow, vcol] at *; grind
  · rintro r hr (rfl | rfl) <;> simp only [put, hrow, vcol] <;> grind
  · rintro r hr h; exact absurd h id
  · intro x y h
    have := hF x y
    simp only [put, hrow, vcol] at *; grind

/-- `p` is the position further to the east. -/
theorem eff_twoS {p q : Coord} (hp : P p) (hq : P q) (hc : SouthClaim G p) (hc' : SouthClaim G q) (hx : q.x < p.x) :
    Eff G (put (hrow (vcol (vcol G q.x (q.y + 1) (ly + 1)) p.x (p.y + 1) ly) ly (q.x + 1) p.x) p.x ly) P ⟨p.x, ly, 0, false⟩
      (fun _ => False) (fun c => c = p ∨ c = q) lx (ly + 1) := by
  have hpf := front_of hP hF hp
  have hpX := (hP p hp).1
  have hqf := front_of hP hF hq
  have hqX := (hP q hq).1
  have hfx : ∀ x, G x ly = .none := fun x => by
    by_contra h
    have := (hF x ly h).2
    omega
  have hou : ∀ r, P r → SouthClaim G r → r ≠ p → r.x ≠ p.x := fun r hr h hne e => hne (south_unique hP hr hp h hc e)
  have hou' : ∀ r, P r → SouthClaim G r → r ≠ q → r.x ≠ q.x := fun r hr h hne e => hne (south_unique hP hr hq h hc' e)
  refine ⟨?_, ?_, ?_, ?_, ?_, ?_, ?_, ?_, ?_, ?_, ?_⟩
  · intro x y h; simp only [put, hrow, vcol]; grind
  · intro x y h; simp only [put, hrow, vcol]; grind
  · intro r hr h _ x hx
    have hrf := front_of hP hF hr
    have := h x hx
    have := hc.2 r.y
    have := hc'.2 r.y
    simp only [put, hrow, vcol]; grind
  · intro r hr h hne
    have := hou r hr h (fun e => hne (.inl e))
    have := hou' r hr h (fun e => hne (.inr e))
    refine ⟨h.1, fun y hy => ?_⟩
    have := h.2 y hy
    have := hfx r.x
    simp only [put, hrow, vcol]; grind
  · exact hfx _
  · simp [put]
  · intro x hx
    have := hfx x
    simp only [put, hrow, vcol] at *; grind
  · refine ⟨hc.1, fun y hy => ?_⟩
    have := hF p.x y
    simp only [put, hrow, vcol] at *; grind
  · rintro r hr h; exact absurd h id
  · rintro r hr (rfl | rfl) <;> simp only [put, hrow, vcol] <;> grind
  · intro x y h
    have := hF x y
    simp only [put, hrow, vcol] at *; grind

/-- `p` is left to the east, `q` to the south. -/
theorem eff_null {p q : Coord} (hp : P p) (hq : P q) (hc : EastClaim G p) (hc' : SouthClaim G q) (hl : 0 < lx) :
    Eff G (put (hrow (vcol (vcol (hrow G p.y (p.x + 1) (lx + 1)) q.x (q.y + 1) (ly + 1)) lx (p.y + 1) ly) ly (q.x + 1) lx) lx ly) P
      ⟨lx, ly, 0, false⟩ (· = p) (· = q) (lx + 1) (ly + 1) := by
  have hpf := front_of hP hF hp
  have hpX := (hP p hp).1
  have hqf := front_of hP hF hq
  have hqX := (hP q hq).1
  have hfx : ∀ y, G lx y = .none := fun y => by
    by_contra h
    have := (hF lx y h).1
    omega
  have hfy : ∀ x, G x ly = .none := fun x => by
    by_contra h
    have := (hF x ly h).2
    omega
  have hou : ∀ r, P r → EastClaim G r → r ≠ p → r.y ≠ p.y := fun r hr h hne e => hne (east_unique hP hr hp h hc e)
  have hou' : ∀ r, P r → SouthClaim G r → r ≠ q → r.x ≠ q.x := fun r hr h hne e => hne (south_unique hP hr hq h hc' e)
  refine ⟨?_, ?_, ?_, ?_, ?_, ?_, ?_, ?_, ?_, ?_, ?_⟩
  · intro x y h; simp only [put, hrow, vcol]; grind
  · intro x y h; simp only [put, hrow, vcol]; grind
  · intro r hr h hne x hx
    have hrf := front_of hP hF hr
    have := hou r hr h hne
    have := h x hx
    have := hc'.2 r.y
    have := hfx r.y
    simp only [put, hrow, vcol]; grind
  · intro r hr h hne
    have hrf := front_of hP hF hr
    have := hou' r hr h hne
    refine ⟨h.1, fun y hy => ?_⟩
    have := h.2 y hy
    have := hc r.x
    have := hfy r.x
    simp only [put, hrow, vcol]; grind
  · exact hfx _
  · simp [put]
  · intro x hx
    have := hfy x
    simp only [put, hrow, vcol] at *; grind
  · refine ⟨by simp only; omega, fun y hy => ?_⟩
    have := hfx y
    simp only [put, hrow, vcol] at *; grind
  · rintro r hr rfl
    simp only [put, hrow, vcol]; grind
  · rintro r hr rfl
    simp only [put, hrow, vcol]; grind
  · intro x y h
    have := hF x y
    simp only [put, hrow, vcol] at *; grind

end

end Verif.PhysicalDesign.Ortho
