import Verif.Coordinates.Lemmas

/-! # One step of `coord_iterator` is the successor in the box -/

namespace Verif.Coordinates

namespace UCoord

/-- Live and inside the box spanned by `ar`. -/
def In (ar c : UCoord) : Prop :=
  c.d = 0#1 ∧ c.x.toNat ≤ ar.x.toNat ∧ c.y.toNat ≤ ar.y.toNat ∧ c.z.toNat ≤ ar.z.toNat

def meas (ar c : UCoord) : Nat :=
  ((ar.z.toNat - c.z.toNat) * (ar.y.toNat + 1) + (ar.y.toNat - c.y.toNat)) * (ar.x.toNat + 1)
    + (ar.x.toNat - c.x.toNat)

theorem iterNext_cases (ar c : UCoord) (hx : ar.x.toNat < 2^31 - 1) (hy : ar.y.toNat < 2^31 - 1)
    (hc : In ar c) :
    (c.x.toNat < ar.x.toNat ∧ iterNext ar c = { c with x := c.x + 1#31 }) ∨
    (c.x.toNat = ar.x.toNat ∧ c.y.toNat < ar.y.toNat ∧
      iterNext ar c = { c with x := 0#31, y := c.y + 1#31 }) ∨
    (c.x.toNat = ar.x.toNat ∧ c.y.toNat = ar.y.toNat ∧ c.z.toNat < ar.z.toNat ∧
      iterNext ar c = { c with x := 0#31, y := 0#31, z := 1#1 }) ∨
    (c.x.toNat = ar.x.toNat ∧ c.y.toNat = ar.y.toNat ∧ c.z.toNat = ar.z.toNat ∧
      iterNext ar c = ar.getDead) := by
  obtain ⟨hd, h1, h2, h3⟩ := hc
  obtain ⟨d, z, y, x⟩ := c
  obtain ⟨ad, az, ay, ax⟩ := ar
  simp only at *
  subst hd
  have bz := z.isLt
  have baz := az.isLt
  by_cases heq : eqb ⟨0#1, z, y, x⟩ ⟨ad, az, ay, ax⟩ = true
  · have := (eqb_iff _ _).1 heq
    simp only [UCoord.mk.injEq] at this
    obtain ⟨rfl, rfl, rfl, rfl⟩ := this
    right; right; right
    simp [iterNext, neb, heq]
  · have e : iterNext ⟨ad, az, ay, ax⟩ ⟨0#1, z, y, x⟩ =
        wrap ⟨0#1, z, y, x + 1#31⟩ ⟨ad, az, ay, ax⟩ := by
      simp [iterNext, neb, heq]
    rw [e]
    have hxe : (x + 1#31).toNat = x.toNat + 1 := by rw [BitVec.toNat_add]; simp; omega
    have hye : (y + 1#31).toNat = y.toNat + 1 := by rw [BitVec.toNat_add]; simp; omega
    simp only [wrap, getDead_eq]
    by_cases c1 : x.toNat < ax.toNat
    · left
      refine ⟨c1, ?_⟩
      have q1 : ¬ (x + 1#31 > ax) := by simp only [gt_iff_lt, BitVec.lt_def]; omega
      have q2 : ¬ (y > ay) := by simp only [gt_iff_lt, BitVec.lt_def]; omega
      have q3 : ¬ (z > az) := by simp only [gt_iff_lt, BitVec.lt_def]; omega
      simp [q1, q2, q3]
    · have c1 : x.toNat = ax.toNat := by omega
      have q1 : (x + 1#31 > ax) := by simp only [gt_iff_lt, BitVec.lt_def]; omega
      by_cases c2 : y.toNat < ay.toNat
      · right; left
        refine ⟨c1, c2, ?_⟩
        have q2 : ¬ (y + 1#31 > ay) := by simp only [gt_iff_lt, BitVec.lt_def]; omega
        have q3 : ¬ (z > az) := by simp only [gt_iff_lt, BitVec.lt_def]; omega
        simp [q1, q2, q3]
      · have c2 : y.toNat = ay.toNat := by omega
        have q2 : (y + 1#31 > ay) := by simp only [gt_iff_lt, BitVec.lt_def]; omega
        by_cases c3 : z.toNat < az.toNat
        · right; right; left
          refine ⟨c1, c2, c3, ?_⟩
          have z1 : ¬ z = 1#1 := by rw [← BitVec.toNat_inj]; simp; omega
          have q3 : ¬ (1#1 > az) := by simp only [gt_iff_lt, BitVec.lt_def]; simp; omega
          simp [q1, q2, z1, q3]
        · have c3 : z.toNat = az.toNat := by omega
          right; right; right
          refine ⟨c1, c2, c3, ?_⟩
          by_cases z1 : z = 1#1
          · simp [q1, q2, z1]
          · have q3 : (1#1 > az) := by
              have : ¬ z.toNat = (1#1).toNat := by rwa [BitVec.toNat_inj]
              simp only [gt_iff_lt, BitVec.lt_def]; simp at *; omega
            simp [q1, q2, z1, q3]

end UCoord

namespace Cube

def In (ar c : Cube) : Prop :=
  c.d = false ∧ 0 ≤ c.x ∧ c.x ≤ ar.x ∧ 0 ≤ c.y ∧ c.y ≤ ar.y ∧ 0 ≤ c.z ∧ c.z ≤ ar.z

def meas (ar c : Cube) : Nat :=
  ((ar.z - c.z).toNat * (ar.y.toNat + 1) + (ar.y - c.y).toNat) * (ar.x.toNat + 1)
    + (ar.x - c.x).toNat

theorem iterNext_cases (ar c : Cube) (hc : In ar c) :
    (c.x < ar.x ∧ iterNext ar c = { c with x := c.x + 1 }) ∨
    (c.x = ar.x ∧ c.y < ar.y ∧ iterNext ar c = { c with x := 0, y := c.y + 1 }) ∨
    (c.x = ar.x ∧ c.y = ar.y ∧ c.z < ar.z ∧
      iterNext ar c = { c with x := 0, y := 0, z := c.z + 1 }) ∨
    (c.x = ar.x ∧ c.y = ar.y ∧ c.z = ar.z ∧ iterNext ar c = ar.getDead) := by
  obtain ⟨hd, h1, h2, h3, h4, h5, h6⟩ := hc
  obtain ⟨d, z, y, x⟩ := c
  obtain ⟨ad, az, ay, ax⟩ := ar
  simp only at *
  subst hd
  simp only [iterNext, neb, eqb, wrap, getDead]
  grind

end Cube

namespace Siqad

def In (ar c : Siqad) : Prop :=
  c.d = false ∧ 0 ≤ c.x ∧ c.x ≤ ar.x ∧ 0 ≤ c.y ∧ c.y ≤ ar.y

def meas (ar c : Siqad) : Nat :=
  (2 * (ar.y - c.y) + (1 - c.zi)).toNat * (ar.x.toNat + 1) + (ar.x - c.x).toNat

theorem iterNext_cases (ar c : Siqad) (hz : ar.z = true) (hc : In ar c) :
    (c.x < ar.x ∧ iterNext ar c = { c with x := c.x + 1 }) ∨
    (c.x = ar.x ∧ c.z = false ∧ iterNext ar c = { c with x := 0, z := true }) ∨
    (c.x = ar.x ∧ c.z = true ∧ c.y < ar.y ∧
      iterNext ar c = { c with x := 0, y := c.y + 1, z := false }) ∨
    (c.x = ar.x ∧ c.y = ar.y ∧ c.z = true ∧ iterNext ar c = ar.getDead) := by
  obtain ⟨hd, h1, h2, h3, h4⟩ := hc
  obtain ⟨d, z, y, x⟩ := c
  obtain ⟨ad, az, ay, ax⟩ := ar
  simp only at *
  subst hd; subst hz
  cases z <;> simp only [iterNext, neb, eqb, wrap, getDead, zi] <;> grind

end Siqad
end Verif.Coordinates

namespace Verif.Coordinates

private theorem mul_step (a X : Nat) (h : 0 < a) : (a - 1) * (X + 1) + X + 1 = a * (X + 1) + 0 := by
  obtain ⟨a, rfl⟩ : ∃ k, a = k + 1 := ⟨a - 1, by omega⟩
  rw [Nat.add_sub_cancel, Nat.succ_mul]; omega

theorem UCoord.range_spec (ar : UCoord) (hx : ar.x.toNat < 2^31 - 1) (hy : ar.y.toNat < 2^31 - 1)
    (stop : UCoord) (hstop : stop = ar.getDead ∨ In ar stop) (cur : UCoord)
    (hcur : cur = stop ∨ (In ar cur ∧ (stop = ar.getDead ∨ ltb cur stop = true)))
    (fuel : Nat) (hf : meas ar cur < fuel) :
    ∃ L, rangeLoop (iterNext ar) stop fuel cur = some L ∧
      (∀ b, b ∈ L ↔ In ar b ∧ In ar cur ∧ ¬ ltb b cur = true ∧
        (stop = ar.getDead ∨ ltb b stop = true)) ∧
      L.Pairwise (fun a b => ltb a b = true) ∧
      L.length + (if stop = ar.getDead then 0 else meas ar stop + 1) =
        if cur = ar.getDead then 0 else meas ar cur + 1 := by
  refine rangeLoop_spec (iterNext ar) (In ar) (fun a b => ltb a b = true) ar.getDead (meas ar)
    ?_ ?_ ?_ ?_ ?_ stop hstop (meas ar cur + 1) cur (by omega) hcur fuel (by omega)
  · intro a; simp only [ltb_iff, true_and]; omega
  · intro a b ha hb
    simp only [ltb_iff, true_and]
    obtain ⟨ha, _⟩ := ha
    obtain ⟨hb, _⟩ := hb
    have := @ext_nat a b (by rw [ha, hb])
    grind
  · intro a b c; simp only [ltb_iff, true_and]; omega
  · rw [getDead_eq]; rintro ⟨h, _⟩; simp at h
  · intro c hc
    obtain ⟨hd, h1, h2, h3⟩ := id hc
    have bz := c.z.isLt
    have baz := ar.z.isLt
    have hxe : c.x.toNat < ar.x.toNat → (c.x + 1#31).toNat = c.x.toNat + 1 := by
      intro h; rw [BitVec.toNat_add]; simp; omega
    have hye : (c.y + 1#31).toNat = c.y.toNat + 1 := by rw [BitVec.toNat_add]; simp; omega
    rcases iterNext_cases ar c hx hy hc with ⟨q1, e⟩ | ⟨q1, q2, e⟩ | ⟨q1, q2, q3, e⟩ | ⟨q1, q2, q3, e⟩
    · right
      rw [e]
      refine ⟨⟨hd, ?_, h2, h3⟩, ?_, ?_, ?_⟩
      · simp only; rw [hxe q1]; omega
      · simp only [ltb_iff, true_and]; rw [hxe q1]; omega
      · simp only [meas]; rw [hxe q1]; omega
      · intro b hb; simp only [ltb_iff, true_and]; rw [hxe q1]; omega
    · right
      rw [e]
      refine ⟨⟨hd, by simp, ?_, h3⟩, ?_, ?_, ?_⟩
      · simp only; rw [hye]; omega
      · simp only [ltb_iff, true_and]; rw [hye]; omega
      · simp only [meas]; rw [hye, q1]
        have := mul_step ((ar.z.toNat - c.z.toNat) * (ar.y.toNat + 1) + (ar.y.toNat - c.y.toNat))
          ar.x.toNat (by omega)
        rw [show (ar.z.toNat - c.z.toNat) * (ar.y.toNat + 1) + (ar.y.toNat - (c.y.toNat + 1)) =
          (ar.z.toNat - c.z.toNat) * (ar.y.toNat + 1) + (ar.y.toNat - c.y.toNat) - 1 by omega]
        simp at *; omega
      · intro b ⟨_, hb, _⟩; simp only [ltb_iff, true_and]; rw [hye]; simp; omega
    · right
      rw [e]
      refine ⟨⟨hd, by simp, by simp, ?_⟩, ?_, ?_, ?_⟩
      · simp; omega
      · simp only [ltb_iff, true_and]; simp; omega
      · have e1 : ar.z.toNat = 1 := by omega
        have e2 : c.z.toNat = 0 := by omega
        simp only [meas]; rw [q1, q2, e1, e2]
        simp; rw [Nat.succ_mul]; omega
      · intro b ⟨_, hb, hb', _⟩; simp only [ltb_iff, true_and]; simp; omega
    · left
      refine ⟨e, by simp [meas, q1, q2, q3], ?_⟩
      intro b ⟨_, hb1, hb2, hb3⟩; simp only [ltb_iff, true_and]; omega

theorem Cube.range_spec (ar : Cube)
    (stop : Cube) (hstop : stop = ar.getDead ∨ In ar stop) (cur : Cube)
    (hcur : cur = stop ∨ (In ar cur ∧ (stop = ar.getDead ∨ ltb cur stop = true)))
    (fuel : Nat) (hf : meas ar cur < fuel) :
    ∃ L, rangeLoop (iterNext ar) stop fuel cur = some L ∧
      (∀ b, b ∈ L ↔ In ar b ∧ In ar cur ∧ ¬ ltb b cur = true ∧
        (stop = ar.getDead ∨ ltb b stop = true)) ∧
      L.Pairwise (fun a b => ltb a b = true) ∧
      L.length + (if stop = ar.getDead then 0 else meas ar stop + 1) =
        if cur = ar.getDead then 0 else meas ar cur + 1 := by
  refine rangeLoop_spec (iterNext ar) (In ar) (fun a b => ltb a b = true) ar.getDead (meas ar)
    ?_ ?_ ?_ ?_ ?_ stop hstop (meas ar cur + 1) cur (by omega) hcur fuel (by omega)
  · intro a; simp only [ltb_iff, true_and]; omega
  · intro a b ha hb
    simp only [ltb_iff, true_and]
    obtain ⟨ha, _⟩ := ha
    obtain ⟨hb, _⟩ := hb
    cases a; cases b; simp_all; omega
  · intro a b c; simp only [ltb_iff, true_and]; omega
  · rintro ⟨h, _⟩; simp [getDead] at h
  · intro c hc
    obtain ⟨hd, h1, h2, h3, h4, h5, h6⟩ := id hc
    rcases iterNext_cases ar c hc with ⟨q1, e⟩ | ⟨q1, q2, e⟩ | ⟨q1, q2, q3, e⟩ | ⟨q1, q2, q3, e⟩
    · right
      rw [e]
      refine ⟨⟨hd, ?_, ?_, h3, h4, h5, h6⟩, ?_, ?_, ?_⟩
      · simp only; omega
      · simp only; omega
      · simp only [ltb_iff, true_and]; omega
      · simp only [meas]; omega
      · intro b hb; simp only [ltb_iff, true_and]; omega
    · right
      rw [e]
      refine ⟨⟨hd, ?_, ?_, ?_, ?_, h5, h6⟩, ?_, ?_, ?_⟩
      · simp
      · simp only; omega
      · simp only; omega
      · simp only; omega
      · simp only [ltb_iff, true_and]; omega
      · simp only [meas]
        have := mul_step ((ar.z - c.z).toNat * (ar.y.toNat + 1) + (ar.y - c.y).toNat)
          ar.x.toNat (by omega)
        rw [show (ar.z - c.z).toNat * (ar.y.toNat + 1) + (ar.y - (c.y + 1)).toNat =
          (ar.z - c.z).toNat * (ar.y.toNat + 1) + (ar.y - c.y).toNat - 1 by omega]
        simp [q1] at *; omega
      · intro b ⟨_, hb, _⟩; simp only [ltb_iff, true_and]; simp; omega
    · right
      rw [e]
      refine ⟨⟨hd, ?_, ?_, ?_, ?_, ?_, ?_⟩, ?_, ?_, ?_⟩
      · simp
      · simp only; omega
      · simp
      · simp only; omega
      · simp only; omega
      · simp only; omega
      · simp only [ltb_iff, true_and]; omega
      · simp only [meas]
        obtain ⟨k, hk⟩ : ∃ k, (ar.z - c.z).toNat = k + 1 := ⟨(ar.z - c.z).toNat - 1, by omega⟩
        rw [show (ar.z - (c.z + 1)).toNat = k by omega, hk, q1, q2, Nat.succ_mul]
        simp
        rw [show k * (ar.y.toNat + 1) + (ar.y.toNat + 1) = (k * (ar.y.toNat + 1) + ar.y.toNat) + 1 by omega,
          Nat.succ_mul]
        omega
      · intro b ⟨_, hb, _, hb', _⟩; simp only [ltb_iff, true_and]; simp; omega
    · left
      refine ⟨e, by simp [meas, q1, q2, q3], ?_⟩
      intro b ⟨_, hb1, hb2, hb3, _⟩; simp only [ltb_iff, true_and]; omega

theorem Siqad.range_spec (ar : Siqad) (hz : ar.z = true)
    (stop : Siqad) (hstop : stop = ar.getDead ∨ In ar stop) (cur : Siqad)
    (hcur : cur = stop ∨ (In ar cur ∧ (stop = ar.getDead ∨ ltb cur stop = true)))
    (fuel : Nat) (hf : meas ar cur < fuel) :
    ∃ L, rangeLoop (iterNext ar) stop fuel cur = some L ∧
      (∀ b, b ∈ L ↔ In ar b ∧ In ar cur ∧ ¬ ltb b cur = true ∧
        (stop = ar.getDead ∨ ltb b stop = true)) ∧
      L.Pairwise (fun a b => ltb a b = true) ∧
      L.length + (if stop = ar.getDead then 0 else meas ar stop + 1) =
        if cur = ar.getDead then 0 else meas ar cur + 1 := by
  refine rangeLoop_spec (iterNext ar) (In ar) (fun a b => ltb a b = true) ar.getDead (meas ar)
    ?_ ?_ ?_ ?_ ?_ stop hstop (meas ar cur + 1) cur (by omega) hcur fuel (by omega)
  · intro a; simp only [ltb_iff, true_and]; omega
  · intro a b ha hb
    simp only [ltb_iff, true_and]
    obtain ⟨ha, _⟩ := ha
    obtain ⟨hb, _⟩ := hb
    obtain ⟨d, z, y, x⟩ := a
    obtain ⟨d', z', y', x'⟩ := b
    cases z <;> cases z' <;> simp_all [zi] <;> omega
  · intro a b c; simp only [ltb_iff, true_and]; omega
  · rintro ⟨h, _⟩; simp [getDead] at h
  · intro c hc
    obtain ⟨hd, h1, h2, h3, h4⟩ := id hc
    have z01 : ∀ b : Siqad, 0 ≤ b.zi ∧ b.zi ≤ 1 := by intro b; unfold zi; split <;> omega
    have zc := z01 c
    have zf : ∀ b : Siqad, b.z = false → b.zi = 0 := by intro b h; simp [zi, h]
    have zt : ∀ b : Siqad, b.z = true → b.zi = 1 := by intro b h; simp [zi, h]
    rcases iterNext_cases ar c hz hc with ⟨q1, e⟩ | ⟨q1, q2, e⟩ | ⟨q1, q2, q3, e⟩ | ⟨q1, q2, q3, e⟩
    · right
      rw [e]
      refine ⟨⟨hd, ?_, ?_, h3, h4⟩, ?_, ?_, ?_⟩
      · simp only; omega
      · simp only; omega
      · simp only [ltb_iff, zi, true_and]; omega
      · simp only [meas, zi]; omega
      · intro b hb; simp only [ltb_iff, zi, true_and]; omega
    · right
      rw [e]
      have q2' := zf c q2
      refine ⟨⟨hd, ?_, ?_, h3, h4⟩, ?_, ?_, ?_⟩
      · simp
      · simp only; omega
      · simp only [ltb_iff, zi, q2]; simp
      · simp only [meas, q2']
        rw [show Siqad.zi { d := c.d, z := true, y := c.y, x := 0 } = 1 by rfl]
        have := mul_step ((2 * (ar.y - c.y) + (1 - 0)).toNat) ar.x.toNat (by omega)
        rw [show (2 * (ar.y - c.y) + (1 - 1)).toNat = (2 * (ar.y - c.y) + (1 - 0)).toNat - 1 by omega]
        simp [q1] at *; omega
      · intro b ⟨_, hb, _⟩
        have := z01 b
        simp only [ltb_iff, true_and]
        rw [show Siqad.zi { d := c.d, z := true, y := c.y, x := 0 } = 1 by rfl]
        simp; omega
    · right
      rw [e]
      have q2' := zt c q2
      refine ⟨⟨hd, ?_, ?_, ?_, ?_⟩, ?_, ?_, ?_⟩
      · simp
      · simp only; omega
      · simp only; omega
      · simp only; omega
      · simp only [ltb_iff, true_and]; omega
      · simp only [meas, q2']
        rw [show Siqad.zi { d := c.d, z := false, y := c.y + 1, x := 0 } = 0 by rfl]
        have := mul_step ((2 * (ar.y - c.y) + (1 - 1)).toNat) ar.x.toNat (by omega)
        rw [show (2 * (ar.y - (c.y + 1)) + (1 - 0)).toNat = (2 * (ar.y - c.y) + (1 - 1)).toNat - 1 by omega]
        simp [q1] at *; omega
      · intro b ⟨_, hb, _⟩
        have := z01 b
        simp only [ltb_iff, true_and]
        rw [show Siqad.zi { d := c.d, z := false, y := c.y + 1, x := 0 } = 0 by rfl]
        simp; omega
    · left
      refine ⟨e, by simp [meas, q1, q2, zt c q3], ?_⟩
      intro b ⟨_, hb1, hb2, hb3, _⟩
      have := z01 b
      have := zt c q3
      simp only [ltb_iff, true_and]; omega

end Verif.Coordinates
