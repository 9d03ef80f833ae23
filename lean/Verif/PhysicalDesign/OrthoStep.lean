import Verif.PhysicalDesign.OrthoGeo

/-!
# Placing and connecting one gate
-/
namespace Verif.PhysicalDesign.Ortho

open Verif.Layouts Verif.Clocking Verif.GateLevel

variable {m : Dim} (hZ : m.Z = 1) {tab : Nat → List Bool → Bool} (htab : ∀ b, tab 2 [b] = b) {K : Nat}
include hZ htab

theorem connect2_spec {G : Grid} {s : State} (r : Rep K G s) {tx ty : Nat} (lit : Nat) {p q : Coord} (hpd : p.d = false) (hpz : p.z = 0)
    (hqd : q.d = false) (hqz : q.z = 0) (hpo : s.tileNode p ≠ none) (hqo : s.tileNode q ≠ none) (hpx : p.x = tx) (hqy : q.y = ty) (hpy : p.y < ty) (hqx : q.x < tx)
    (hcol : ∀ y, p.y < y → y < ty → G tx y = .none ∨ G tx y = .H) (hrow' : ∀ x, q.x < x → x < tx → G x ty = .none ∨ G x ty = .V)
    (ht : G tx ty = .none) :
    Stepped K (put (hrow (vcol G tx (p.y + 1) ty) ty (q.x + 1) tx) tx ty) s (connect2 m s ⟨tx, ty, 0, false⟩ lit p q) ∧
    ∀ asg b b', SVal tab K s asg p b → SVal tab K s asg q b' →
      SVal tab K (connect2 m s ⟨tx, ty, 0, false⟩ lit p q) asg ⟨tx, ty, 0, false⟩ (tab lit [b, b']) := by
  have hbef : before q p = false := by
    unfold before
    rw [hpz, hqz]
    simp
    omega
  unfold connect2
  simp only [hbef, Bool.false_eq_true, if_false]
  obtain ⟨w1, -, z1, hz1, e1, -⟩ := wireSouth_spec hZ htab r hpd hpo (by omega) hpy (by rw [hpx]; exact hcol)
  rw [hpx] at w1
  obtain ⟨w2, -, z2, hz2, e2, -⟩ := wireEast_spec hZ htab w1.rep hqd (w1.ext.occ hqd hqo) (by omega) hqx (by
    intro x h1 h2
    unfold vcol
    rw [if_neg (by omega), hqy]
    exact hrow' x h1 h2)
  rw [hqy] at w2
  have hG : hrow (vcol G tx (p.y + 1) ty) ty (q.x + 1) tx tx ty = .none := by
    unfold hrow vcol
    rw [if_neg (by omega), if_neg (by omega)]
    exact ht
  have hn1 : Nbr (wireSouth m s p ty).2 ⟨tx, ty, 0, false⟩ := by
    rw [e1]
    exact ⟨rfl, hz1, .inr ⟨hpx, by simp only; omega⟩⟩
  have hn2 : Nbr (wireEast m (wireSouth m s p ty).1 q tx).2 ⟨tx, ty, 0, false⟩ := by
    rw [e2]
    exact ⟨rfl, hz2, .inl ⟨by simp only; omega, hqy⟩⟩
  obtain ⟨g, gv⟩ := gate2_spec (m := m) (tab := tab) w2.rep hG lit hn1 hn2 (w2.ext.occ (by rw [e1]) w1.occ) w2.occ
  refine ⟨(w1.stepped.trans w2.stepped).trans g, ?_⟩
  intro asg b b' hb hb'
  exact gv asg b b' ((w1.val asg b hb).mono w2.ext) (w2.val asg b' (hb'.mono w1.ext))

variable {G : Grid} {P : Coord → Prop} {lx ly : Nat} (hP : ∀ p, P p → G p.x p.y = .X ∧ p.z = 0 ∧ p.d = false)
  (hF : ∀ x y, G x y ≠ .none → x < lx ∧ y < ly)
include hP hF

theorem oneE_spec {s : State} (r : Rep K G s) {p : Coord} (hp : P p) (hc : EastClaim G p) {lit : Nat} (hlit : lit = 2 ∨ lit = 3) :
    ∃ s', connect1 m s ⟨lx, p.y, 0, false⟩ lit p = some s' ∧ Stepped K (put (hrow G p.y (p.x + 1) lx) lx p.y) s s' ∧
      ∀ asg b, SVal tab K s asg p b → SVal tab K s' asg ⟨lx, p.y, 0, false⟩ (tab lit [b]) := by
  have hpf := front_of hP hF hp
  obtain ⟨pX, pz, pd⟩ := hP p hp
  have po : s.tileNode p ≠ none := r.occ (by rw [pX]; simp) pz pd
  obtain ⟨w, -, z, hz, e, -⟩ := wireEast_spec hZ htab r pd po (by omega) hpf.1 (fun x h _ => hc x h)
  have hG : hrow G p.y (p.x + 1) lx lx p.y = .none := by
    unfold hrow
    rw [if_neg (by omega)]
    by_contra h
    have := (hF _ _ h).1
    omega
  have hn : Nbr (wireEast m s p lx).2 ⟨lx, p.y, 0, false⟩ := by
    rw [e]
    exact ⟨rfl, hz, .inl ⟨by simp only; omega, rfl⟩⟩
  obtain ⟨g, gv⟩ := gate1_spec (m := m) (tab := tab) w.rep hG hlit hn w.occ
  refine ⟨_, ?_, w.stepped.trans g, fun asg b hb => gv asg b (w.val asg b hb)⟩
  unfold connect1 place1
  rw [if_pos (by simp [Cart.isWestwardsOf, pz, hpf.1]), if_pos hlit]

theorem oneS_spec {s : State} (r : Rep K G s) {p : Coord} (hp : P p) (hc : SouthClaim G p) {lit : Nat} (hlit : lit = 2 ∨ lit = 3) :
    ∃ s', connect1 m s ⟨p.x, ly, 0, false⟩ lit p = some s' ∧ Stepped K (put (vcol G p.x (p.y + 1) ly) p.x ly) s s' ∧
      ∀ asg b, SVal tab K s asg p b → SVal tab K s' asg ⟨p.x, ly, 0, false⟩ (tab lit [b]) := by
  have hpf := front_of hP hF hp
  obtain ⟨pX, pz, pd⟩ := hP p hp
  have po : s.tileNode p ≠ none := r.occ (by rw [pX]; simp) pz pd
  obtain ⟨w, -, z, hz, e, -⟩ := wireSouth_spec hZ htab r pd po (by omega) hpf.2 (fun x h _ => hc.2 x h)
  have hG : vcol G p.x (p.y + 1) ly p.x ly = .none := by
    unfold vcol
    rw [if_neg (by omega)]
    by_contra h
    have := (hF _ _ h).2
    omega
  have hn : Nbr (wireSouth m s p ly).2 ⟨p.x, ly, 0, false⟩ := by
    rw [e]
    exact ⟨rfl, hz, .inr ⟨rfl, by simp only; omega⟩⟩
  obtain ⟨g, gv⟩ := gate1_spec (m := m) (tab := tab) w.rep hG hlit hn w.occ
  refine ⟨_, ?_, w.stepped.trans g, fun asg b hb => gv asg b (w.val asg b hb)⟩
  unfold connect1 place1
  rw [if_neg (by simp [Cart.isWestwardsOf]), if_pos (by simp [Cart.isNorthwardsOf, pz, hpf.2]), if_pos hlit]

theorem twoE_spec {s : State} (r : Rep K G s) {p q : Coord} (hp : P p) (hq : P q) (hc : EastClaim G p) (hc' : EastClaim G q)
    (hy : p.y < q.y) (lit : Nat) :
    let w := wireEast m s p (lx + 1)
    Stepped K (put (hrow (vcol (hrow G p.y (p.x + 1) (lx + 1)) lx (p.y + 1) q.y) q.y (q.x + 1) lx) lx q.y) s
      (connect2 m w.1 ⟨lx, q.y, 0, false⟩ lit w.2 q) ∧
    ∀ asg b b', SVal tab K s asg p b → SVal tab K s asg q b' →
      SVal tab K (connect2 m w.1 ⟨lx, q.y, 0, false⟩ lit w.2 q) asg ⟨lx, q.y, 0, false⟩ (tab lit [b, b']) := by
  have hpf := front_of hP hF hp
  have hqf := front_of hP hF hq
  obtain ⟨pX, pz, pd⟩ := hP p hp
  have po : s.tileNode p ≠ none := r.occ (by rw [pX]; simp) pz pd
  obtain ⟨qX, qz, qd⟩ := hP q hq
  have qo : s.tileNode q ≠ none := r.occ (by rw [qX]; simp) qz qd
  have hfx : ∀ y, G lx y = .none := fun y => by
    by_contra h
    have := (hF lx y h).1
    omega
  obtain ⟨w, -, z, hz, e, hz0⟩ := wireEast_spec hZ htab r pd po (by omega) (X := lx + 1) (by omega) (fun x h _ => hc x h)
  have hz0' := hz0 (by omega) (by simpa using hfx p.y)
  subst hz0'
  simp only [Nat.add_sub_cancel] at e
  obtain ⟨c, cv⟩ := connect2_spec hZ htab (tx := lx) (ty := q.y) w.rep lit (p := (wireEast m s p (lx + 1)).2) (q := q) (by rw [e]) (by rw [e])
    qd qz w.occ (w.ext.occ qd qo) (by rw [e]) rfl (by rw [e]; exact hy) hqf.1 (by
      rw [e]
      intro y h1 h2
      have := hfx y
      simp only [hrow] at *; grind) (by
      intro x h1 h2
      have := hc' x h1
      simp only [hrow] at *; grind) (by
      have := hfx q.y
      simp only [hrow] at *; grind)
  have ey : (wireEast m s p (lx + 1)).2.y = p.y := by rw [e]
  rw [ey] at c
  refine ⟨w.stepped.trans c, fun asg b b' hb hb' => cv asg b b' (w.val asg b hb) (hb'.mono w.ext)⟩

theorem twoS_spec {s : State} (r : Rep K G s) {p q : Coord} (hp : P p) (hq : P q) (hc : SouthClaim G p) (hc' : SouthClaim G q)
    (hx : q.x < p.x) (lit : Nat) :
    let w := wireSouth m s q (ly + 1)
    Stepped K (put (hrow (vcol (vcol G q.x (q.y + 1) (ly + 1)) p.x (p.y + 1) ly) ly (q.x + 1) p.x) p.x ly) s
      (connect2 m w.1 ⟨p.x, ly, 0, false⟩ lit p w.2) ∧
    ∀ asg b b', SVal tab K s asg p b → SVal tab K s asg q b' →
      SVal tab K (connect2 m w.1 ⟨p.x, ly, 0, false⟩ lit p w.2) asg ⟨p.x, ly, 0, false⟩ (tab lit [b, b']) := by
  have hpf := front_of hP hF hp
  have hqf := front_of hP hF hq
  obtain ⟨pX, pz, pd⟩ := hP p hp
  have po : s.tileNode p ≠ none := r.occ (by rw [pX]; simp) pz pd
  obtain ⟨qX, qz, qd⟩ := hP q hq
  have qo : s.tileNode q ≠ none := r.occ (by rw [qX]; simp) qz qd
  have hfy : ∀ x, G x ly = .none := fun x => by
    by_contra h
    have := (hF x ly h).2
    omega
  obtain ⟨w, -, z, hz, e, hz0⟩ := wireSouth_spec hZ htab r qd qo (by omega) (Y := ly + 1) (by omega) (fun x h _ => hc'.2 x h)
  have hz0' := hz0 (by omega) (by simpa using hfy q.x)
  subst hz0'
  simp only [Nat.add_sub_cancel] at e
  obtain ⟨c, cv⟩ := connect2_spec hZ htab (tx := p.x) (ty := ly) w.rep lit (p := p) (q := (wireSouth m s q (ly + 1)).2) pd pz (by rw [e])
    (by rw [e]) (w.ext.occ pd po) w.occ rfl (by rw [e]) hpf.2 (by rw [e]; exact hx) (by
      intro y h1 h2
      have := hc.2 y h1
      simp only [vcol] at *; grind) (by
      rw [e]
      intro x h1 h2
      have := hfy x
      simp only [vcol] at *; grind) (by
      have := hfy p.x
      simp only [vcol] at *; grind)
  have ex : (wireSouth m s q (ly + 1)).2.x = q.x := by rw [e]
  rw [ex] at c
  refine ⟨w.stepped.trans c, fun asg b b' hb hb' => cv asg b b' (hb.mono w.ext) (w.val asg b' hb')⟩

theorem null_spec {s : State} (r : Rep K G s) {p q : Coord} (hp : P p) (hq : P q) (hc : EastClaim G p) (hc' : SouthClaim G q) (lit : Nat) :
    let w1 := wireEast m s p (lx + 1)
    let w2 := wireSouth m w1.1 q (ly + 1)
    Stepped K (put (hrow (vcol (vcol (hrow G p.y (p.x + 1) (lx + 1)) q.x (q.y + 1) (ly + 1)) lx (p.y + 1) ly) ly (q.x + 1) lx) lx ly) s
      (connect2 m w2.1 ⟨lx, ly, 0, false⟩ lit w1.2 w2.2) ∧
    ∀ asg b b', SVal tab K s asg p b → SVal tab K s asg q b' →
      SVal tab K (connect2 m w2.1 ⟨lx, ly, 0, false⟩ lit w1.2 w2.2) asg ⟨lx, ly, 0, false⟩ (tab lit [b, b']) := by
  have hpf := front_of hP hF hp
  have hqf := front_of hP hF hq
  obtain ⟨pX, pz, pd⟩ := hP p hp
  have po : s.tileNode p ≠ none := r.occ (by rw [pX]; simp) pz pd
  obtain ⟨qX, qz, qd⟩ := hP q hq
  have qo : s.tileNode q ≠ none := r.occ (by rw [qX]; simp) qz qd
  have hfx : ∀ y, G lx y = .none := fun y => by
    by_contra h
    have := (hF lx y h).1
    omega
  have hfy : ∀ x, G x ly = .none := fun x => by
    by_contra h
    have := (hF x ly h).2
    omega
  intro w1 w2
  obtain ⟨w, -, z, hz, e, hz0⟩ := wireEast_spec hZ htab r pd po (by omega) (X := lx + 1) (by omega) (fun x h _ => hc x h)
  have hz0' := hz0 (by omega) (by simpa using hfx p.y)
  subst hz0'
  simp only [Nat.add_sub_cancel] at e
  obtain ⟨v, -, z, hz, e', hz0⟩ := wireSouth_spec hZ htab w.rep qd (w.ext.occ qd qo) (by omega) (Y := ly + 1) (by omega) (fun y h _ => by
    have := hc'.2 y h
    have := hc q.x
    simp only [hrow] at *; grind)
  have hz0' := hz0 (by omega) (by
    have := hfy q.x
    simp only [hrow, Nat.add_sub_cancel] at *; grind)
  subst hz0'
  simp only [Nat.add_sub_cancel] at e'
  change w1.2 = _ at e
  change w2.2 = _ at e'
  change Wired _ _ _ _ _ w1.1 w1.2 at w
  change Wired _ _ _ _ _ w2.1 w2.2 at v
  obtain ⟨c, cv⟩ := connect2_spec hZ htab (tx := lx) (ty := ly) v.rep lit (p := w1.2) (q := w2.2) (by rw [e]) (by rw [e]) (by rw [e'])
    (by rw [e']) (v.ext.occ (by rw [e]) w.occ) v.occ (by rw [e]) (by rw [e']) (by rw [e]; exact hpf.2) (by rw [e']; exact hqf.1) (by
      rw [e]
      intro y h1 h2
      have := hfx y
      simp only [hrow, vcol] at *; grind) (by
      rw [e']
      intro x h1 h2
      have := hfy x
      simp only [hrow, vcol] at *; grind) (by
      have := hfy lx
      simp only [hrow, vcol] at *; grind)
  have ey : w1.2.y = p.y := by rw [e]
  have ex : w2.2.x = q.x := by rw [e']
  rw [ey, ex] at c
  refine ⟨(w.stepped.trans v.stepped).trans c, fun asg b b' hb hb' => ?_⟩
  exact cv asg b b' ((w.val asg b hb).mono v.ext) (v.val asg b' (hb'.mono w.ext))

end Verif.PhysicalDesign.Ortho
