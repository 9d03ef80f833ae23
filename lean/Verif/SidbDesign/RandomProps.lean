import Verif.SidbDesign.RandomFacts
import Verif.Coordinates.Lemmas

/-! # C78: random SiDB layouts -/
namespace Verif.SidbDesign

open Verif.Coordinates Verif.Cells

/-! ## Specification -/

/-- The box spanned by two corners. -/
def InBox (a b c : Cube) : Prop :=
  c.d = false ∧ a.x ≤ c.x ∧ c.x ≤ b.x ∧ a.y ≤ c.y ∧ c.y ≤ b.y ∧ a.z ≤ c.z ∧ c.z ≤ b.z

/-- The row of a SiQAD coordinate, counted from the top; there are two rows of dots per row of dimers. -/
def row (c : Siqad) : Int := 2 * c.y + (if c.z then 1 else 0)

/-- The box spanned by two corners. -/
def InBoxSiqad (a b c : Siqad) : Prop := c.d = false ∧ a.x ≤ c.x ∧ c.x ≤ b.x ∧ row a ≤ row c ∧ row c ≤ row b

/-! ## Coordinates -/

/-- Random coordinates lie in the box spanned by the upper left and the lower right corner, given in either order, and
every coordinate of the box can be drawn. -/
theorem C78_coordinate_cube (a b : Cube) (hx : a.x ≤ b.x) (hy : a.y ≤ b.y) (hz : a.z ≤ b.z) :
    (∀ r, ∃ c, randomCube a b r = some c ∧ randomCube b a r = some c ∧ InBox a b c) ∧
    ∀ c, InBox a b c → ∃ r, randomCube a b r = some c ∧ randomCube b a r = some c := by
  have h1 : Cube.gtb a b = false := by
    simp only [Cube.gtb, Bool.eq_false_iff, ne_eq, Cube.ltb_iff]; omega
  have h2 : ∀ r, randomCube b a r = randomCube a b r := by
    intro r
    unfold randomCube
    by_cases h : Cube.gtb b a = true
    · rw [h1, h]; rfl
    · have h' := h
      simp only [Cube.gtb, Cube.ltb_iff] at h'
      have e : b.x = a.x ∧ b.y = a.y ∧ b.z = a.z := by omega
      rw [h1, if_neg h, if_neg (by simp)]
      simp only [e.1, e.2.1, e.2.2]
  constructor
  · intro r
    obtain ⟨x, ex, x1, x2⟩ := uniform_spec hx r.1
    obtain ⟨y, ey, y1, y2⟩ := uniform_spec hy r.2.1
    obtain ⟨z, ez, z1, z2⟩ := uniform_spec hz r.2.2
    have e : randomCube a b r = some (Cube.mk3 x y z) := by unfold randomCube; simp [h1, ex, ey, ez]
    exact ⟨_, e, by rw [h2, e], rfl, x1, x2, y1, y2, z1, z2⟩
  · rintro c ⟨hd, x1, x2, y1, y2, z1, z2⟩
    have e : randomCube a b ((c.x - a.x).toNat, (c.y - a.y).toNat, (c.z - a.z).toNat) = some c := by
      unfold randomCube
      simp only [h1, Bool.false_eq_true, if_false, uniform_onto x1 x2, uniform_onto y1 y2, uniform_onto z1 z2]
      cases c; simp_all [Cube.mk3]
    exact ⟨_, e, by rw [h2, e]⟩

theorem siqad_lt (a b : Siqad) : Siqad.ltb a b = true ↔ row a < row b ∨ (row a = row b ∧ a.x < b.x) := by
  unfold Siqad.ltb row Siqad.zi
  cases a.z <;> cases b.z <;> simp <;> grind

/-- The same for SiQAD coordinates. -/
theorem C78_coordinate_siqad (a b : Siqad) (ha : a.d = false) (hb : b.d = false) (hx : a.x ≤ b.x)
    (hy : row a ≤ row b) :
    (∀ r, ∃ c, randomSiqad a b r = some c ∧ randomSiqad b a r = some c ∧ InBoxSiqad a b c) ∧
    ∀ c, InBoxSiqad a b c → ∃ r, randomSiqad a b r = some c ∧ randomSiqad b a r = some c := by
  have hyy : a.y ≤ b.y := by unfold row at hy; split_ifs at hy <;> omega
  have h1 : Siqad.gtb a b = false := by
    simp only [Siqad.gtb, Bool.eq_false_iff, ne_eq, siqad_lt]; omega
  have h2 : ∀ r, randomSiqad b a r = randomSiqad a b r := by
    intro r
    unfold randomSiqad
    by_cases h : Siqad.gtb b a = true
    · rw [h1, h]; rfl
    · have h' := h
      simp only [Siqad.gtb, siqad_lt] at h'
      have e : b = a := by
        have e1 : b.x = a.x := by omega
        have e2 : row b = row a := by omega
        cases a; cases b
        simp only [row] at e2
        simp only at ha hb e1
        grind
      rw [e]
  constructor
  · intro r
    obtain ⟨x, ex, x1, x2⟩ := uniform_spec hx r.1
    obtain ⟨y, ey, y1, y2⟩ := uniform_spec hyy r.2.1
    obtain ⟨z, ez, z1, z2⟩ := uniform_spec (show (0 : Int) ≤ 1 by omega) r.2.2
    have e : randomSiqad a b r = some (clampSiqad (Siqad.mk3 x y (z = 1)) a b) := by
      unfold randomSiqad; simp [h1, ex, ey, ez]
    refine ⟨_, e, by rw [h2, e], ?_⟩
    unfold clampSiqad
    split_ifs with c1 c2
    · exact ⟨ha, Int.le_refl _, hx, Int.le_refl _, hy⟩
    · exact ⟨hb, hx, Int.le_refl _, hy, Int.le_refl _⟩
    · rw [siqad_lt] at c1 c2
      have e3 : (Siqad.mk3 x y (decide (z = 1))).x = x := rfl
      rw [e3] at c1 c2
      refine ⟨rfl, x1, x2, ?_, ?_⟩ <;> omega
  · rintro c ⟨hd, x1, x2, y1, y2⟩
    have y1' : a.y ≤ c.y := by unfold row at y1; split_ifs at y1 <;> omega
    have y2' : c.y ≤ b.y := by unfold row at y2; split_ifs at y2 <;> omega
    have e : randomSiqad a b ((c.x - a.x).toNat, (c.y - a.y).toNat, if c.z then 1 else 0) = some c := by
      have ez : uniform 0 1 (if c.z then 1 else 0) = some (if c.z then 1 else 0) := by cases c.z <;> decide
      unfold randomSiqad
      simp only [h1, Bool.false_eq_true, if_false, uniform_onto x1 x2, uniform_onto y1' y2', ez]
      have ec : Siqad.mk3 c.x c.y (decide ((if c.z = true then (1 : Int) else 0) = 1)) = c := by
        cases c with | mk d z y x => cases z <;> simp_all [Siqad.mk3]
      rw [ec]
      unfold clampSiqad
      rw [if_neg (by rw [siqad_lt]; omega), if_neg (by rw [siqad_lt]; omega)]
    exact ⟨_, e, by rw [h2, e]⟩

/-- The other two corners of the same box do not do: the distribution of the columns is undefined. -/
theorem C78_other_corners : ∃ a b : Cube, ∀ r, randomCube a b r = none ∧ randomCube b a r = none :=
  ⟨Cube.mk3 5 0 0, Cube.mk3 0 5 0, fun r => by
    constructor <;> simp [randomCube, uniform, Cube.gtb, Cube.ltb, Cube.mk3]⟩

/-! ## One layout -/

section
variable {C D : Type} [DecidableEq C]

/-- The positions that were free in the skeleton and are not any more. -/
def added (s l : Lyt C D) : List C := l.cells.cells.filter (fun c => s.cells.getCellType c = .empty)

theorem added_length {s l : Lyt C D} (hs : Inv s.cells) (hl : Inv l.cells)
    (keep : ∀ c, s.cells.getCellType c ≠ .empty → l.cells.getCellType c ≠ .empty) :
    (added s l).length + s.cells.numCells = l.cells.numCells := by
  rw [numCells_eq, numCells_eq]
  have hp : (added s l ++ s.cells.cells).Perm l.cells.cells := by
    refine (List.perm_ext_iff_of_nodup ?_ (cells_nodup hl)).2 fun c => ?_
    · refine List.nodup_append'.2 ⟨(cells_nodup hl).filter _, cells_nodup hs, fun c h1 h2 => ?_⟩
      have := (List.mem_filter.1 h1).2
      exact (occupied_iff hs c).1 h2 (by simpa using this)
    · rw [List.mem_append, added, List.mem_filter, occupied_iff hs, occupied_iff hl]
      constructor
      · rintro (⟨h, _⟩ | h)
        · exact h
        · exact keep c h
      · intro h
        by_cases e : s.cells.getCellType c = .empty
        · exact .inl ⟨h, by simpa using e⟩
        · exact .inr e
  rw [← hp.length_eq, List.length_append]

/-- Whatever the treatment of positive charges, a layout that is returned has the requested number of dots more than the
skeleton; it differs from the skeleton only where a coordinate was drawn that is neither defective nor affected by a
defect. If positive charges may occur, they can. -/
theorem C78_any {P : Params C D} {s : Lyt C D} {aff : List C} {draw : Nat → C} {fuel i j : Nat} {l : Lyt C D}
    (hs : Inv s.cells) (h : generate P (some (s, aff)) draw fuel i = some (some l, j)) :
    Inv l.cells ∧ l.defects = s.defects ∧ l.cells.numCells = s.cells.numCells + P.number ∧
    (∀ c, l.cells.getCellType c = s.cells.getCellType c ∨
      ((∃ k, draw k = c) ∧ Free s aff c ∧ (l.cells.getCellType c = .logic ∨ l.cells.getCellType c = .empty))) ∧
    (P.positive = .mayOccur → P.canOccur l = true) := by
  obtain ⟨s', aff', target, t, i', l', g1, g2, g3, g4, g5, g6⟩ := generate_cases h
  rcases g1 with ⟨e, rfl, rfl⟩ | ⟨e, _⟩
  swap; · cases e
  simp only [Option.some.injEq, Prod.mk.injEq] at e
  obtain ⟨rfl, rfl⟩ := e
  split_ifs at g6 with hn
  simp only [Option.some.injEq] at g6
  subst g6
  have hS := place_ind (P := P) (aff := aff) (t := .logic) (draw := draw) (target := P.number + s.cells.numCells)
    (fun j l => Since s aff .logic draw i' j l) (fun j l _ h => h.attempt) P.attempts i' s
    ⟨hs, Nat.le_refl _, rfl, fun c => .inl rfl⟩
  rw [g4] at hS
  refine ⟨hS.inv, hS.defects, by omega, fun c => ?_, g5⟩
  rcases hS.cell c with e | ⟨⟨k, _, _, e⟩, f, o⟩
  · exact .inl e
  · exact .inr ⟨⟨k, e⟩, f, o⟩

/-- If dots are never removed, the loop keeps all occupied positions. -/
theorem place_keeps {P : Params C D} {aff : List C} {t : SidbType} (ht : t ≠ .empty) {draw : Nat → C} {s : Lyt C D}
    (hP : P.positive ≠ .forbidden) (target n i : Nat) :
    ∀ c, s.cells.getCellType c ≠ .empty → (place P aff t target draw n i s).1.cells.getCellType c ≠ .empty := by
  refine place_ind (fun _ l => ∀ c, s.cells.getCellType c ≠ .empty → l.cells.getCellType c ≠ .empty) ?_ _ _ _
    (fun c h => h)
  intro j l _ h c hc
  unfold attempt
  dsimp only
  split_ifs with h1 h2
  · exact absurd h2.1 hP
  · rw [type_assign]; split_ifs
    · exact ht
    · exact h c hc
  · exact h c hc

/-- Unless positive charges are forbidden, every dot of the skeleton is still a dot, and exactly the requested number of
dots is added: at positions drawn, as logic dots, none of them on a defect or where a defect affects it. -/
theorem C78_skeleton {P : Params C D} (hP : P.positive ≠ .forbidden) {s : Lyt C D} {aff : List C} {draw : Nat → C}
    {fuel i j : Nat} {l : Lyt C D} (hs : Inv s.cells)
    (h : generate P (some (s, aff)) draw fuel i = some (some l, j)) :
    (∀ c, s.cells.getCellType c ≠ .empty → l.cells.getCellType c ≠ .empty) ∧
    (added s l).Nodup ∧ (added s l).length = P.number ∧
    ∀ c ∈ added s l, (∃ k, draw k = c) ∧ l.cells.getCellType c = .logic ∧ s.defective c = false ∧ c ∉ aff := by
  obtain ⟨hi, _, hn, hc, _⟩ := C78_any hs h
  have keep : ∀ c, s.cells.getCellType c ≠ .empty → l.cells.getCellType c ≠ .empty := by
    obtain ⟨s', aff', target, t, i', l', g1, g2, g3, g4, g5, g6⟩ := generate_cases h
    rcases g1 with ⟨e, rfl, rfl⟩ | ⟨e, _⟩
    swap; · cases e
    simp only [Option.some.injEq, Prod.mk.injEq] at e
    obtain ⟨rfl, rfl⟩ := e
    split_ifs at g6 with hn
    simp only [Option.some.injEq] at g6
    subst g6
    have := place_keeps (P := P) (aff := aff) (t := .logic) (by simp) (draw := draw) (s := s) hP
      (P.number + s.cells.numCells) P.attempts i'
    rwa [g4] at this
  have hal := added_length hs hi keep
  refine ⟨keep, (cells_nodup hi).filter _, by omega, fun c hm => ?_⟩
  obtain ⟨h1, h2⟩ := List.mem_filter.1 hm
  rw [occupied_iff hi] at h1
  simp only [decide_eq_true_eq] at h2
  rcases hc c with e | ⟨d, f, o | o⟩
  · exact absurd (e.trans h2) h1
  · exact ⟨d, o, f.1, f.2⟩
  · exact absurd o h1

/-- Whether positive charges can occur depends on the occupied positions and on the defects only. -/
def OnDots (f : Lyt C D → Bool) : Prop := ∀ l l' : Lyt C D, Inv l.cells → Inv l'.cells → l.defects = l'.defects →
  (∀ c, l.cells.getCellType c = .empty ↔ l'.cells.getCellType c = .empty) → f l = f l'

/-- If positive charges are forbidden, none can occur in a layout to which a dot was added. If none can occur in the
skeleton either, then all of what is said above holds too. -/
theorem C78_forbidden_partial {P : Params C D} (hP : P.positive = .forbidden) (hf : OnDots P.canOccur) {s : Lyt C D}
    {aff : List C} {draw : Nat → C} {fuel i j : Nat} {l : Lyt C D} (hs : Inv s.cells)
    (h : generate P (some (s, aff)) draw fuel i = some (some l, j)) :
    (0 < P.number → P.canOccur l = false) ∧
    (P.canOccur s = false → P.canOccur l = false ∧
      (∀ c, s.cells.getCellType c ≠ .empty → l.cells.getCellType c ≠ .empty) ∧
      (added s l).Nodup ∧ (added s l).length = P.number ∧
      ∀ c ∈ added s l, (∃ k, draw k = c) ∧ l.cells.getCellType c = .logic ∧ s.defective c = false ∧ c ∉ aff) := by
  obtain ⟨hi, _, hn, hc, _⟩ := C78_any hs h
  have base : (P.canOccur l = false ∨ ∀ c, l.cells.getCellType c ≠ .empty → s.cells.getCellType c ≠ .empty) ∧
      (P.canOccur s = false → P.canOccur l = false ∧
        ∀ c, s.cells.getCellType c ≠ .empty → l.cells.getCellType c ≠ .empty) := by
    obtain ⟨s', aff', target, t, i', l', g1, g2, g3, g4, g5, g6⟩ := generate_cases h
    rcases g1 with ⟨e, rfl, rfl⟩ | ⟨e, _⟩
    swap; · cases e
    simp only [Option.some.injEq, Prod.mk.injEq] at e
    obtain ⟨rfl, rfl⟩ := e
    split_ifs at g6 with hn
    simp only [Option.some.injEq] at g6
    subst g6
    have := place_ind (P := P) (aff := aff) (t := .logic) (draw := draw) (target := P.number + s.cells.numCells)
      (fun _ l => Inv l.cells ∧ (P.canOccur l = false ∨ ∀ c, l.cells.getCellType c ≠ .empty → s.cells.getCellType c ≠ .empty) ∧
        (P.canOccur s = false → P.canOccur l = false ∧
          ∀ c, s.cells.getCellType c ≠ .empty → l.cells.getCellType c ≠ .empty))
      ?_ P.attempts i' s ⟨hs, .inr fun c h => h, fun h => ⟨h, fun c h => h⟩⟩
    · rw [g4] at this; exact this.2
    intro k l _ ⟨h0, h1, h2⟩
    unfold attempt
    dsimp only
    split_ifs with q1 q2
    · -- the dot is removed again
      have ty : ∀ c, (((l.assign (draw k) .logic).assign (draw k) .empty).cells.getCellType c) =
          if c = draw k then .empty else l.cells.getCellType c := by
        intro c; rw [type_assign, type_assign]; split_ifs <;> rfl
      by_cases he : l.cells.getCellType (draw k) = .empty
      · have same : P.canOccur ((l.assign (draw k) .logic).assign (draw k) .empty) = P.canOccur l := by
          refine hf _ l (inv_assign (inv_assign h0 _ _) _ _) h0 rfl ?_
          intro c; rw [ty]; split_ifs with e
          · rw [e]; exact ⟨fun _ => he, fun _ => rfl⟩
          · rfl
        rw [same]
        refine ⟨inv_assign (inv_assign h0 _ _) _ _, h1.imp_right fun h c hc => ?_, fun hp => ⟨(h2 hp).1, fun c hc => ?_⟩⟩
        · rw [ty] at hc; split_ifs at hc with e
          · exact absurd rfl hc
          · exact h c hc
        · rw [ty]; split_ifs with e
          · have := (h2 hp).2 c hc; rw [e] at this; exact absurd he this
          · exact (h2 hp).2 c hc
      · have same : P.canOccur (l.assign (draw k) .logic) = P.canOccur l := by
          refine hf _ l (inv_assign h0 _ _) h0 rfl ?_
          intro c; rw [type_assign]; split_ifs with e
          · rw [e]; exact ⟨fun h => (by cases h), fun h => absurd h he⟩
          · rfl
        rw [same] at q2
        refine ⟨inv_assign (inv_assign h0 _ _) _ _, .inr fun c hc => ?_, fun hp => ?_⟩
        · rcases h1 with h1 | h1
          · rw [h1] at q2; exact absurd q2.2 (by simp)
          · rw [ty] at hc; split_ifs at hc with e
            · exact absurd rfl hc
            · exact h1 c hc
        · rw [(h2 hp).1] at q2; exact absurd q2.2 (by simp)
    · have hno : P.canOccur (l.assign (draw k) .logic) = false := by
        cases hc : P.canOccur (l.assign (draw k) .logic) with
        | false => rfl
        | true => exact absurd ⟨hP, hc⟩ q2
      refine ⟨inv_assign h0 _ _, .inl hno, fun hp => ⟨hno, fun c hc => ?_⟩⟩
      rw [type_assign]; split_ifs
      · simp
      · exact (h2 hp).2 c hc
    · exact ⟨h0, h1, h2⟩
  constructor
  · intro hpos
    rcases base.1 with h1 | h1
    · exact h1
    · exfalso
      have : (l.cells.cells).Subperm s.cells.cells := (cells_nodup hi).subperm fun c hc => by
        rw [occupied_iff hi] at hc; rw [occupied_iff hs]; exact h1 c hc
      have := this.length_le
      rw [numCells_eq, numCells_eq] at hn
      omega
  · intro hp
    obtain ⟨b1, keep⟩ := base.2 hp
    have hal := added_length hs hi keep
    refine ⟨b1, keep, (cells_nodup hi).filter _, by omega, fun c hm => ?_⟩
    obtain ⟨h1, h2⟩ := List.mem_filter.1 hm
    rw [occupied_iff hi] at h1
    simp only [decide_eq_true_eq] at h2
    rcases hc c with e | ⟨d, f, o | o⟩
    · exact absurd (e.trans h2) h1
    · exact ⟨d, o, f.1, f.2⟩
    · exact absurd o h1

/-- Without a skeleton, the layout consists of the requested number of normal dots at positions drawn. -/
theorem C78_blank {P : Params C D} {draw : Nat → C} {fuel i j : Nat} {l : Lyt C D}
    (h : generate P none draw fuel i = some (some l, j)) :
    Inv l.cells ∧ l.defects = [] ∧ l.cells.numCells = P.number ∧
    (∀ c ∈ l.cells.cells, (∃ k, draw k = c) ∧ l.cells.getCellType c = .normal) ∧
    (P.positive = .mayOccur → P.canOccur l = true) := by
  obtain ⟨s', aff', target, t, i', l', g1, g2, g3, g4, g5, g6⟩ := generate_cases h
  rcases g1 with ⟨e, _⟩ | ⟨_, rfl, rfl, rfl, rfl⟩
  · cases e
  split_ifs at g6 with hn
  simp only [Option.some.injEq] at g6
  subst g6
  have hS := place_ind (P := P) (aff := []) (t := .normal) (draw := draw) (target := P.number)
    (fun j l => Since blank [] .normal draw i' j l) (fun j l _ h => h.attempt) P.attempts i' blank
    ⟨inv_new sidb_lawful _ _ _, Nat.le_refl _, rfl, fun c => .inl rfl⟩
  rw [g4] at hS
  refine ⟨hS.inv, hS.defects, by omega, fun c hm => ?_, g5⟩
  rw [occupied_iff hS.inv] at hm
  rcases hS.cell c with e | ⟨⟨k, _, _, e⟩, f, o | o⟩
  · exact absurd e hm
  · exact ⟨⟨k, e⟩, o⟩
  · exact absurd o hm

/-- Nothing is returned only if all attempts were used up without success. -/
theorem C78_nothing {P : Params C D} (hP : P.positive ≠ .mayOccur) {sk : Option (Lyt C D × List C)}
    (hs : ∀ p, sk = some p → Inv p.1.cells) {draw : Nat → C} (fuel i : Nat) :
    ∃ res j, generate P sk draw (fuel + 1) i = some (res, j) ∧ j ≤ i + P.attempts ∧
      (res = none → j = i + P.attempts) := by
  have term : ∃ res j, generate P sk draw (fuel + 1) i = some (res, j) := by
    unfold generate
    dsimp only
    rw [if_neg (fun h => hP h.1)]
    split_ifs <;> exact ⟨_, _, rfl⟩
  obtain ⟨res, j, h⟩ := term
  refine ⟨res, j, h, ?_⟩
  obtain ⟨s, aff, target, t, i', l, g1, g2, g3, g4, g5, g6⟩ := generate_cases h
  have hi := g3 hP
  subst hi
  have he := place_end (P := P) (aff := aff) (t := t) (draw := draw) (target := target) P.attempts i' s
  rw [g4] at he
  refine ⟨he.1, fun hr => ?_⟩
  rcases he.2 with h1 | h1
  swap; · exact h1
  exfalso
  have ht : t ≠ .empty := by rcases g1 with ⟨_, _, rfl⟩ | ⟨_, _, _, _, rfl⟩ <;> simp
  have hinv : Inv s.cells ∧ s.cells.numCells ≤ target := by
    rcases g1 with ⟨e, e2, _⟩ | ⟨_, e, _, e2, _⟩
    · exact ⟨hs _ e, by omega⟩
    · rw [e]; exact ⟨inv_new sidb_lawful _ _ _, Nat.zero_le _⟩
  have := place_ind (P := P) (aff := aff) (t := t) (draw := draw) (target := target)
    (fun j l => Since s aff t draw i' j l ∧ l.cells.numCells ≤ target)
    (fun j l hlt h => ⟨h.1.attempt, by have := attempt_count (P := P) (aff := aff) ht h.1.inv (draw j); omega⟩)
    P.attempts i' s ⟨⟨hinv.1, Nat.le_refl _, rfl, fun c => .inl rfl⟩, hinv.2⟩
  rw [g4] at this
  dsimp only at h1 this
  rw [if_pos (by omega)] at g6
  rw [g6] at hr
  cases hr

/-- Every way to place the requested number of dots can be the result. -/
theorem C78_possible {P : Params C D} (hP : P.positive = .allowed) {s : Lyt C D} {aff : List C} (hs : Inv s.cells)
    (cs : List C) (hcs : cs.Nodup) (hlen : cs.length = P.number) (hat : P.number ≤ P.attempts)
    (hfree : ∀ c ∈ cs, s.cells.getCellType c = .empty ∧ s.defective c = false ∧ c ∉ aff)
    (draw : Nat → C) (hdraw : ∀ (k : Nat) (c : C), cs[k]? = some c → draw k = c) :
    ∃ l, generate P (some (s, aff)) draw 1 0 = some (some l, P.number) ∧
      ∀ c, l.cells.getCellType c = if c ∈ cs then .logic else s.cells.getCellType c := by
  have key : ∀ (rest done : List C) (n : Nat) (l : Lyt C D), cs = done ++ rest → rest.length ≤ n → Inv l.cells →
      l.defects = s.defects → l.cells.numCells = s.cells.numCells + done.length →
      (∀ c, l.cells.getCellType c = if c ∈ done then .logic else s.cells.getCellType c) →
      ∃ l', place P aff .logic (P.number + s.cells.numCells) draw n done.length l = (l', cs.length) ∧
        l'.cells.numCells = s.cells.numCells + cs.length ∧
        ∀ c, l'.cells.getCellType c = if c ∈ cs then .logic else s.cells.getCellType c := by
    intro rest
    induction rest with
    | nil =>
      intro done n l e _ hi hd hn ht
      rw [List.append_nil] at e
      subst e
      refine ⟨l, ?_, hn, ht⟩
      cases n with
      | zero => rfl
      | succ n => unfold place; rw [if_neg (by omega)]
    | cons c rest ih =>
      intro done n l e hle hi hd hn ht
      obtain ⟨n, rfl⟩ : ∃ m, n = m + 1 := ⟨n - 1, by simp only [List.length_cons] at hle; omega⟩
      have hc : cs[done.length]? = some c := by rw [e]; simp
      have hm : c ∈ cs := by rw [e]; simp
      have hnd : c ∉ done := by
        rw [e] at hcs
        have := List.nodup_append'.1 hcs
        exact fun h => this.2.2 h (by simp)
      obtain ⟨f1, f2, f3⟩ := hfree c hm
      have hlc : l.cells.getCellType c = .empty := by rw [ht, if_neg hnd, f1]
      have hlen' : done.length < cs.length := by rw [e]; simp
      unfold place
      rw [if_pos (by omega), hdraw _ _ hc]
      have ea : attempt P aff .logic c l = l.assign c .logic := by
        unfold attempt
        have hdf : l.defective c = false := by unfold Lyt.defective at f2 ⊢; rw [hd]; exact f2
        simp [hdf, f3, hP]
      rw [ea]
      have := ih (done ++ [c]) n (l.assign c .logic) (by rw [e]; simp)
        (by simp only [List.length_cons] at hle; omega) (inv_assign hi _ _) hd ?_ ?_
      · rwa [List.length_append] at this
      · unfold Lyt.assign; dsimp only
        rw [numCells_assign hi c (by simp), if_pos hlc, List.length_append, hn]; simp; omega
      · intro k
        rw [type_assign, ht]
        by_cases e1 : k = c
        · simp [e1]
        · simp [e1]
  obtain ⟨l, h1, h2, h3⟩ := key cs [] P.attempts s rfl (by omega) hs rfl rfl (by simp)
  refine ⟨l, ?_, h3⟩
  unfold generate
  dsimp only
  rw [if_neg (by simp [hP]), show (0 : Nat) = ([] : List C).length from rfl, h1]
  dsimp only
  rw [if_pos (by omega), hlen]

/-! ## Several layouts -/

/-- The layouts of a run are results of single runs, and no two of them agree in all cells. -/
theorem multiLoop_spec [DecidableEq D] {P : Params C D} {sk : Option (Lyt C D × List C)} {H : Hashes C D}
    {draw : Nat → C} {calls : Nat} (hs : ∀ p, sk = some p → Inv p.1.cells) :
    ∀ (fuel i : Nat) (us : List (Lyt C D)) (ds : List (BitVec 64 × Nat)) (bad : Nat) (out : List (Lyt C D)) (bad' : Nat),
      us.length ≤ P.unique →
      (∀ u ∈ us, ∃ i j, generate P sk draw calls i = some (some u, j)) →
      us.Pairwise (fun a b => ∃ c, a.cells.getCellType c ≠ b.cells.getCellType c) →
      ds = (us.map (digest H)).zipIdx →
      multiLoop P sk H draw calls fuel i us ds bad = some (out, bad') →
      out.length ≤ P.unique ∧ (∀ u ∈ out, ∃ i j, generate P sk draw calls i = some (some u, j)) ∧
      out.Pairwise (fun a b => ∃ c, a.cells.getCellType c ≠ b.cells.getCellType c) := by
  have good : ∀ {u : Lyt C D} {i j : Nat}, generate P sk draw calls i = some (some u, j) →
      Inv u.cells ∧ u.defects = ((sk.map (·.1)).getD blank).defects := by
    intro u i j h
    cases sk with
    | none => obtain ⟨a, b, _⟩ := C78_blank h; exact ⟨a, b⟩
    | some p => obtain ⟨a, b, _⟩ := C78_any (hs _ rfl) h; exact ⟨a, b⟩
  intro fuel
  induction fuel with
  | zero => intro i us ds bad out bad' _ _ _ _ h; cases h
  | succ fuel ih =>
    intro i us ds bad out bad' h1 h2 h3 h4 h
    unfold multiLoop at h
    split_ifs at h with hc
    · cases hg : generate P sk draw calls i with
      | none => rw [hg] at h; cases h
      | some r =>
        obtain ⟨res, j⟩ := r
        rw [hg] at h
        cases res with
        | none => exact ih _ _ _ _ _ _ h1 h2 h3 h4 h
        | some l =>
          dsimp only at h
          split_ifs at h with hid
          · exact ih _ _ _ _ _ _ h1 h2 h3 h4 h
          · refine ih _ _ _ _ _ _ (by simp; omega) ?_ ?_ ?_ h
            · intro u hu
              rcases List.mem_append.1 hu with hu | hu
              · exact h2 u hu
              · simp only [List.mem_singleton] at hu; subst hu; exact ⟨i, j, hg⟩
            · refine List.pairwise_append.2 ⟨h3, List.pairwise_singleton _ _, fun u hu v hv => ?_⟩
              simp only [List.mem_singleton] at hv
              subst hv
              by_contra hcon
              simp only [not_exists, ne_eq, not_not] at hcon
              obtain ⟨i', j', hu'⟩ := h2 u hu
              obtain ⟨a1, a2⟩ := good hu'
              obtain ⟨b1, b2⟩ := good hg
              obtain ⟨k, hk⟩ := List.getElem?_of_mem hu
              have hcon' := fun c => (hcon c).symm
              have hdig := digest_congr H b1 a1 (b2.trans a2.symm) hcon'
              have hidt := identical_of_eq b1 a1 (b2.trans a2.symm) hcon'
              apply hid
              rw [List.any_eq_true]
              refine ⟨(digest H v, k), ?_, ?_⟩
              · rw [List.mem_filter]
                refine ⟨?_, by simp⟩
                rw [h4, List.mk_mem_zipIdx_iff_getElem?, List.getElem?_map, hk, hdig]; rfl
              · dsimp only; rw [hk]; exact hidt
            · rw [h4, List.map_append, List.zipIdx_append]; simp
    · simp only [Option.some.injEq, Prod.mk.injEq] at h
      obtain ⟨rfl, _⟩ := h
      exact ⟨h1, h2, h3⟩

/-- The layouts that are returned are results of single runs, there is at least one and there are no more than
requested, and any two of them differ in the type of some cell. This does not depend on the hash functions. -/
theorem C78_unique [DecidableEq D] {P : Params C D} {sk : Option (Lyt C D × List C)} {H : Hashes C D}
    {draw : Nat → C} {calls fuel : Nat} (hs : ∀ p, sk = some p → Inv p.1.cells) {us : List (Lyt C D)}
    (h : generateMultiple P sk H draw calls fuel = some (some us)) :
    us ≠ [] ∧ us.length ≤ P.unique ∧ (∀ u ∈ us, ∃ i j, generate P sk draw calls i = some (some u, j)) ∧
    us.Pairwise (fun a b => ∃ c, a.cells.getCellType c ≠ b.cells.getCellType c) := by
  unfold generateMultiple at h
  obtain ⟨⟨us', bad⟩, h1, h2⟩ := Option.map_eq_some_iff.1 h
  dsimp only at h2
  split_ifs at h2 with he
  simp only [Option.some.injEq] at h2
  subst h2
  have := multiLoop_spec (H := H) hs fuel 0 [] [] 0 _ _ (Nat.zero_le _) (by simp) (by simp) rfl h1
  exact ⟨by simpa using he, this⟩

theorem multi_terminates [DecidableEq D] {P : Params C D} {sk : Option (Lyt C D × List C)} {H : Hashes C D}
    {draw : Nat → C} {calls : Nat} (hr : ∀ i, ∃ r, generate P sk draw calls i = some r) :
    ∀ (fuel i : Nat) (us : List (Lyt C D)) (ds : List (BitVec 64 × Nat)) (bad : Nat), us.length ≤ P.unique →
      bad ≤ P.uniqueAttempts → (P.unique - us.length) + (P.uniqueAttempts - bad) < fuel →
      ∃ out bad', multiLoop P sk H draw calls fuel i us ds bad = some (out, bad') ∧
        (out.length = P.unique ∨ bad' = P.uniqueAttempts) := by
  intro fuel
  induction fuel with
  | zero => intro i us ds bad _ _ h; omega
  | succ fuel ih =>
    intro i us ds bad h1 h2 h3
    unfold multiLoop
    split_ifs with hc
    · obtain ⟨⟨res, j⟩, hg⟩ := hr i
      rw [hg]
      cases res with
      | none => exact ih _ _ _ _ h1 (by omega) (by omega)
      | some l =>
        dsimp only
        split_ifs
        · exact ih _ _ _ _ h1 (by omega) (by omega)
        · refine ih _ _ _ _ ?_ h2 ?_ <;> simp only [List.length_append, List.length_singleton] <;> omega
    · exact ⟨us, bad, rfl, by omega⟩

/-- Unless positive charges are required, the search for several layouts comes to an end. It returns as many as
requested unless the given number of attempts failed. -/
theorem C78_multiple_terminates [DecidableEq D] {P : Params C D} (hP : P.positive ≠ .mayOccur)
    {sk : Option (Lyt C D × List C)} (hs : ∀ p, sk = some p → Inv p.1.cells) (H : Hashes C D) (draw : Nat → C) :
    ∃ us bad, multiLoop P sk H draw 1 (P.unique + P.uniqueAttempts + 1) 0 [] [] 0 = some (us, bad) ∧
      (us.length = P.unique ∨ bad = P.uniqueAttempts) ∧
      generateMultiple P sk H draw 1 (P.unique + P.uniqueAttempts + 1) =
        some (if us = [] then none else some us) := by
  obtain ⟨us, bad, h1, h2⟩ := multi_terminates (H := H) (calls := 1) (sk := sk) (draw := draw) (P := P)
    (fun i => by obtain ⟨r, j, h, _⟩ := C78_nothing hP hs (draw := draw) 0 i; exact ⟨_, h⟩)
    (P.unique + P.uniqueAttempts + 1) 0 [] [] 0 (Nat.zero_le _) (Nat.zero_le _)
    (by simp only [List.length_nil]; omega)
  refine ⟨us, bad, h1, h2, ?_⟩
  unfold generateMultiple
  rw [h1, Option.map_some]
  cases us <;> rfl

end

/-! ## Witnesses -/

/-- Two dots right next to each other. -/
def close (l : Lyt Nat Unit) : Bool := l.cells.cells.any (fun c => l.cells.cells.any (fun d => c = d + 1))

theorem close_onDots : OnDots close := by
  intro l l' h h' _ e
  have hm : ∀ c, c ∈ l.cells.cells ↔ c ∈ l'.cells.cells := fun c => by
    rw [occupied_iff h, occupied_iff h', not_iff_not, e]
  unfold close
  rw [Bool.eq_iff_iff]
  simp only [List.any_eq_true, hm]

/-- A skeleton with an input, an output and a dot between them. -/
def exSkeleton : Lyt Nat Unit := (((blank.assign 0 .input).assign 2 .normal).assign 4 .output)

theorem exSkeleton_inv : Inv exSkeleton.cells := inv_assign (inv_assign (inv_assign (inv_new sidb_lawful _ _ _) _ _) _ _) _ _

/-- Coordinates drawn one after the other from a list, and zero afterwards. -/
def drawn (l : List Nat) (k : Nat) : Nat := l.getD k 0

/-- A case that meets the hypotheses of `C78_skeleton` and of `C78_possible`: a defect is avoided. -/
example : ∃ l, generate { number := 2, attempts := 10, canOccur := close }
    (some ({ exSkeleton with defects := [(7, ())] }, [8])) (drawn [7, 6, 8, 6, 9]) 1 0 = some (some l, 5) ∧
    l.cells.cells = [9, 6, 4, 2, 0] := by
  have key : (generate { number := 2, attempts := 10, canOccur := close }
    (some ({ exSkeleton with defects := [(7, ())] }, [8])) (drawn [7, 6, 8, 6, 9]) 1 0).map
      (fun r => (r.1.map (·.cells.cells), r.2)) = some (some [9, 6, 4, 2, 0], 5) := by decide +kernel
  obtain ⟨⟨r, j⟩, h, e⟩ := Option.map_eq_some_iff.1 key
  simp only [Prod.mk.injEq] at e
  obtain ⟨l, rfl, h2⟩ := Option.map_eq_some_iff.1 e.1
  exact ⟨l, by rw [h, e.2], h2⟩

/-- A case that meets the hypotheses of `C78_forbidden_partial`: a dot next to another one is not placed. -/
example : OnDots close ∧ close exSkeleton = false ∧
    ∃ l, generate { number := 2, positive := .forbidden, attempts := 10, canOccur := close } (some (exSkeleton, []))
      (drawn [1, 6, 5, 8]) 1 0 = some (some l, 4) ∧ l.cells.cells = [8, 6, 4, 2, 0] := by
  refine ⟨close_onDots, by decide +kernel, ?_⟩
  have key : (generate { number := 2, positive := .forbidden, attempts := 10, canOccur := close } (some (exSkeleton, []))
      (drawn [1, 6, 5, 8]) 1 0).map (fun r => (r.1.map (·.cells.cells), r.2)) = some (some [8, 6, 4, 2, 0], 4) := by
    decide +kernel
  obtain ⟨⟨r, j⟩, h, e⟩ := Option.map_eq_some_iff.1 key
  simp only [Prod.mk.injEq] at e
  obtain ⟨l, rfl, h2⟩ := Option.map_eq_some_iff.1 e.1
  exact ⟨l, by rw [h, e.2], h2⟩

/-- Two different layouts are found although the first is drawn twice. -/
example : ∃ us : List (Lyt Nat Unit), generateMultiple { number := 2, attempts := 10, unique := 2, canOccur := close } none
    ⟨fun c => BitVec.ofNat 64 c, fun _ => 0, fun _ => 0⟩ (drawn [1, 2, 2, 1, 1, 3]) 1 4 = some (some us) ∧
    us.map (·.cells.cells) = [[2, 1], [3, 1]] := by
  have key : ((generateMultiple { number := 2, attempts := 10, unique := 2, canOccur := close } none
    ⟨fun c => BitVec.ofNat 64 c, fun _ => 0, fun _ => 0⟩ (drawn [1, 2, 2, 1, 1, 3]) 1 4).map
      (Option.map (List.map (·.cells.cells)))) = some (some [[2, 1], [3, 1]]) := by decide +kernel
  obtain ⟨r, h, e⟩ := Option.map_eq_some_iff.1 key
  obtain ⟨us, rfl, h2⟩ := Option.map_eq_some_iff.1 e
  exact ⟨us, h, h2⟩

/-- The inputs and outputs of the skeleton need not survive: if the coordinate of an input is drawn, it becomes a logic
dot. -/
theorem C78_false_inputs : ∃ (P : Params Nat Unit) (s : Lyt Nat Unit) (draw : Nat → Nat) (l : Lyt Nat Unit) (j : Nat),
    P.positive = .allowed ∧ Inv s.cells ∧ generate P (some (s, [])) draw 1 0 = some (some l, j) ∧
    s.cells.inputs = [0] ∧ l.cells.inputs = [] ∧ l.cells.getCellType 0 = .logic := by
  have key : (generate { number := 1, attempts := 10, canOccur := close } (some (exSkeleton, [])) (drawn [0, 6]) 1 0).map
      (fun r => (r.1.map (fun l => (l.cells.inputs, l.cells.getCellType 0)), r.2)) =
      some (some ([], SidbType.logic), 2) := by decide +kernel
  obtain ⟨⟨r, j⟩, h, e⟩ := Option.map_eq_some_iff.1 key
  simp only [Prod.mk.injEq] at e
  obtain ⟨l, rfl, h2⟩ := Option.map_eq_some_iff.1 e.1
  simp only [Prod.mk.injEq] at h2
  exact ⟨_, _, _, l, j, rfl, exSkeleton_inv, h, by decide +kernel, h2.1, h2.2⟩

/-- If positive charges are forbidden but can occur in the skeleton, then dots of the skeleton get lost: drawing the
coordinate of such a dot removes it. -/
theorem C78_false_forbidden : ∃ (P : Params Nat Unit) (s : Lyt Nat Unit) (draw : Nat → Nat) (l : Lyt Nat Unit) (j : Nat),
    P.positive = .forbidden ∧ Inv s.cells ∧ generate P (some (s, [])) draw 1 0 = some (some l, j) ∧
    s.cells.getCellType 0 = .input ∧ l.cells.getCellType 0 = .empty ∧ (added s l).length ≠ P.number := by
  have key : (generate { number := 1, positive := .forbidden, attempts := 10, canOccur := close }
      (some (exSkeleton.assign 1 .normal, [])) (drawn [0, 2, 6, 8, 10]) 1 0).map
      (fun r => (r.1.map (fun l => (l.cells.getCellType 0, (added (exSkeleton.assign 1 .normal) l).length)), r.2)) =
      some (some (SidbType.empty, 3), 5) := by decide +kernel
  obtain ⟨⟨r, j⟩, h, e⟩ := Option.map_eq_some_iff.1 key
  simp only [Prod.mk.injEq] at e
  obtain ⟨l, rfl, h2⟩ := Option.map_eq_some_iff.1 e.1
  simp only [Prod.mk.injEq] at h2
  exact ⟨_, _, _, l, j, rfl, inv_assign exSkeleton_inv _ _, h, by decide +kernel, h2.1, by rw [h2.2]; decide⟩

/-- One dot, which is to be placed so that positive charges can occur. -/
def lonely : Params Nat Unit :=
  { number := 1, positive := .mayOccur, attempts := 10, canOccur := fun l => 2 ≤ l.cells.numCells }

/-- If positive charges are required but cannot occur with the requested number of dots, the generator does not come to
an end, whatever is drawn and however few attempts are allowed. -/
theorem C78_false_terminates : ∃ P : Params Nat Unit, P.number = 1 ∧ P.attempts = 10 ∧
    (∀ l, P.canOccur l = true ↔ 2 ≤ l.cells.numCells) ∧ ∀ draw fuel i, generate P none draw fuel i = none := by
  refine ⟨lonely, rfl, rfl, fun l => by simp [lonely], fun draw fuel i => ?_⟩
  cases h : generate lonely none draw fuel i with
  | none => rfl
  | some r =>
    obtain ⟨res, j⟩ := r
    exfalso
    obtain ⟨s', aff', target, t, i', l', g1, g2, g3, g4, g5, g6⟩ := generate_cases h
    rcases g1 with ⟨e, _⟩ | ⟨_, rfl, rfl, rfl, rfl⟩
    · cases e
    have := place_ind (P := lonely) (aff := []) (t := .normal) (draw := draw) (target := 1)
      (fun j l => Since (blank : Lyt Nat Unit) [] .normal draw i' j l ∧ l.cells.numCells ≤ 1)
      (fun j l hlt h => ⟨h.1.attempt, by
        have := attempt_count (P := lonely) (aff := []) (t := .normal) (by simp) h.1.inv (draw j)
        omega⟩)
      10 i' blank ⟨⟨inv_new sidb_lawful _ _ _, Nat.le_refl _, rfl, fun c => .inl rfl⟩, Nat.zero_le _⟩
    have e : place lonely [] .normal 1 draw 10 i' blank = (l', j) := g4
    rw [e] at this
    have h1 := this.2
    have h2 := g5 rfl
    simp only [lonely, decide_eq_true_eq] at h1 h2
    omega

end Verif.SidbDesign
