import Verif.Coordinates.Iteration
import Verif.Coordinates.Span

/-! # Properties C01–C05 of the coordinate types -/

namespace Verif.Coordinates

/-! ## C01: packing -/

/-- C01. Packing a coordinate into a 64-bit word and unpacking the word is the identity. -/
theorem C01_coord_roundtrip (c : UCoord) : UCoord.ofWord c.toWord = c := UCoord.ofWord_toWord c

/-- C01. Unpacking any 64-bit word and packing the coordinate is the identity. -/
theorem C01_word_roundtrip (t : BitVec 64) : (UCoord.ofWord t).toWord = t := UCoord.toWord_ofWord t

/-- C01. Coordinates are equal iff their words are, iff `operator==` says so (either overload). -/
theorem C01_word_injective (a b : UCoord) :
    (a.toWord = b.toWord ↔ a = b) ∧ (UCoord.eqb a b = true ↔ a = b) ∧
    (UCoord.eqWord a b.toWord = true ↔ a = b) := by
  have h : a.toWord = b.toWord ↔ a = b :=
    ⟨fun h => by rw [← UCoord.ofWord_toWord a, h, UCoord.ofWord_toWord], fun h => by rw [h]⟩
  exact ⟨h, UCoord.eqb_iff a b, by simp [UCoord.eqWord, h]⟩

/-- C01. The word is the documented positional layout `d·2^63 + z·2^62 + y·2^31 + x`. -/
theorem C01_word_layout (c : UCoord) :
    c.toWord.toNat = c.d.toNat * 2^63 + c.z.toNat * 2^62 + c.y.toNat * 2^31 + c.x.toNat := by
  have hd := c.d.isLt
  have hz := c.z.isLt
  have hy := c.y.isLt
  have hx := c.x.isLt
  have e : c.toWord = BitVec.cast (by decide) (c.d ++ c.z ++ c.y ++ c.x) := by
    simp only [UCoord.toWord]
    ext i hi
    simp only [BitVec.getElem_or, BitVec.getElem_shiftLeft, BitVec.getElem_setWidth,
      BitVec.getLsbD_shiftLeft, BitVec.getLsbD_or, BitVec.getLsbD_setWidth, BitVec.getElem_cast,
      BitVec.getElem_append, BitVec.getLsbD_append]
    grind
  rw [e]
  simp only [BitVec.toNat_cast, BitVec.toNat_append, Nat.shiftLeft_eq]
  rw [← Nat.shiftLeft_eq, ← Nat.shiftLeft_add_eq_or_of_lt (by omega),
    ← Nat.shiftLeft_eq, ← Nat.shiftLeft_add_eq_or_of_lt (by omega),
    ← Nat.shiftLeft_eq, ← Nat.shiftLeft_add_eq_or_of_lt (by omega)]
  simp only [Nat.shiftLeft_eq]
  omega

/-- C01. `get_dead` sets the dead flag and changes nothing else. -/
theorem C01_get_dead (c : UCoord) :
    c.getDead.isDead = true ∧ c.getDead.x = c.x ∧ c.getDead.y = c.y ∧ c.getDead.z = c.z := by
  rw [UCoord.getDead_eq]; simp [UCoord.isDead]

-- a non-trivial coordinate using the top bits of every field
example : (UCoord.mk 1#1 1#1 0x7fffffff#31 0x40000001#31).toWord = 0xffffffffc0000001#64 := by decide

/-! ## C02: orderings -/

/-- Spec: a decidable relation is a strict total order up to an equivalence. -/
structure StrictTotalUpTo {α : Type} (lt : α → α → Bool) (same : α → α → Prop) : Prop where
  irrefl : ∀ a, lt a a = false
  trans : ∀ a b c, lt a b = true → lt b c = true → lt a c = true
  trichotomy : ∀ a b, (lt a b = true ∧ ¬ same a b ∧ lt b a = false) ∨
    (lt a b = false ∧ same a b ∧ lt b a = false) ∨ (lt a b = false ∧ ¬ same a b ∧ lt b a = true)

/-- C02. `operator<` on offset coordinates is a strict total order on positions (it ignores the dead flag). -/
theorem C02_ucoord_order :
    StrictTotalUpTo UCoord.ltb (fun a b => a.x = b.x ∧ a.y = b.y ∧ a.z = b.z) where
  irrefl a := by rw [Bool.eq_false_iff]; simp only [ne_eq, UCoord.ltb_iff]; omega
  trans a b c := by simp only [UCoord.ltb_iff]; omega
  trichotomy a b := by
    simp only [Bool.eq_false_iff, ne_eq, UCoord.ltb_iff, ← BitVec.toNat_inj]; omega

/-- C02. `operator<` on cube coordinates. -/
theorem C02_cube_order :
    StrictTotalUpTo Cube.ltb (fun a b => a.x = b.x ∧ a.y = b.y ∧ a.z = b.z) where
  irrefl a := by rw [Bool.eq_false_iff]; simp only [ne_eq, Cube.ltb_iff]; omega
  trans a b c := by simp only [Cube.ltb_iff]; omega
  trichotomy a b := by
    simp only [Bool.eq_false_iff, ne_eq, Cube.ltb_iff]; omega

/-- C02. `operator<` on SiQAD coordinates. -/
theorem C02_siqad_order :
    StrictTotalUpTo Siqad.ltb (fun a b => a.x = b.x ∧ a.y = b.y ∧ a.z = b.z) where
  irrefl a := by rw [Bool.eq_false_iff]; simp only [ne_eq, Siqad.ltb_iff]; omega
  trans a b c := by simp only [Siqad.ltb_iff]; omega
  trichotomy a b := by
    have : a.z = b.z ↔ a.zi = b.zi := by
      unfold Siqad.zi; cases a.z <;> cases b.z <;> simp
    simp only [Bool.eq_false_iff, ne_eq, Siqad.ltb_iff, this]; omega

/-- C02. With equal dead flags "same position" is `operator==`, so exactly one of `<`, `==`, `>` holds. -/
theorem C02_ucoord_trichotomy (a b : UCoord) (h : a.d = b.d) :
    (UCoord.ltb a b = true ∧ UCoord.eqb a b = false ∧ UCoord.gtb a b = false) ∨
    (UCoord.ltb a b = false ∧ UCoord.eqb a b = true ∧ UCoord.gtb a b = false) ∨
    (UCoord.ltb a b = false ∧ UCoord.eqb a b = false ∧ UCoord.gtb a b = true) := by
  have := C02_ucoord_order.trichotomy a b
  have e : UCoord.eqb a b = true ↔ (a.x = b.x ∧ a.y = b.y ∧ a.z = b.z) := by
    rw [UCoord.eqb_iff]; cases a; cases b; simp_all; grind
  grind [UCoord.gtb]

theorem C02_cube_trichotomy (a b : Cube) (h : a.d = b.d) :
    (Cube.ltb a b = true ∧ Cube.eqb a b = false ∧ Cube.gtb a b = false) ∨
    (Cube.ltb a b = false ∧ Cube.eqb a b = true ∧ Cube.gtb a b = false) ∨
    (Cube.ltb a b = false ∧ Cube.eqb a b = false ∧ Cube.gtb a b = true) := by
  have := C02_cube_order.trichotomy a b
  have e : Cube.eqb a b = true ↔ (a.x = b.x ∧ a.y = b.y ∧ a.z = b.z) := by
    rw [Cube.eqb_iff]; cases a; cases b; simp_all; grind
  grind [Cube.gtb]

theorem C02_siqad_trichotomy (a b : Siqad) (h : a.d = b.d) :
    (Siqad.ltb a b = true ∧ Siqad.eqb a b = false ∧ Siqad.gtb a b = false) ∨
    (Siqad.ltb a b = false ∧ Siqad.eqb a b = true ∧ Siqad.gtb a b = false) ∨
    (Siqad.ltb a b = false ∧ Siqad.eqb a b = false ∧ Siqad.gtb a b = true) := by
  have := C02_siqad_order.trichotomy a b
  have e : Siqad.eqb a b = true ↔ (a.x = b.x ∧ a.y = b.y ∧ a.z = b.z) := by
    rw [Siqad.eqb_iff]; cases a; cases b; simp_all; grind
  grind [Siqad.gtb]

/-- C02. The derived operators: `a <= b` iff `a < b` or same position, `a >= b` iff `b <= a`,
`a > b` iff `b < a`, `a != b` iff not `a == b`. -/
theorem C02_ucoord_derived (a b : UCoord) :
    (UCoord.leb a b = true ↔ (UCoord.ltb a b = true ∨ (a.x = b.x ∧ a.y = b.y ∧ a.z = b.z))) ∧
    (UCoord.geb a b = UCoord.leb b a) ∧ (UCoord.gtb a b = UCoord.ltb b a) ∧
    (UCoord.neb a b = true ↔ a ≠ b) := by
  have := C02_ucoord_order.trichotomy a b
  refine ⟨?_, rfl, rfl, by simp [UCoord.neb, Bool.eq_false_iff, UCoord.eqb_iff]⟩
  grind [UCoord.leb, UCoord.gtb]

theorem C02_cube_derived (a b : Cube) :
    (Cube.leb a b = true ↔ (Cube.ltb a b = true ∨ (a.x = b.x ∧ a.y = b.y ∧ a.z = b.z))) ∧
    (Cube.geb a b = Cube.leb b a) ∧ (Cube.gtb a b = Cube.ltb b a) ∧
    (Cube.neb a b = true ↔ a ≠ b) := by
  have := C02_cube_order.trichotomy a b
  refine ⟨?_, rfl, rfl, by simp [Cube.neb, Bool.eq_false_iff, Cube.eqb_iff]⟩
  grind [Cube.leb, Cube.gtb]

theorem C02_siqad_derived (a b : Siqad) :
    (Siqad.leb a b = true ↔ (Siqad.ltb a b = true ∨ (a.x = b.x ∧ a.y = b.y ∧ a.z = b.z))) ∧
    (Siqad.geb a b = Siqad.leb b a) ∧ (Siqad.gtb a b = Siqad.ltb b a) ∧
    (Siqad.neb a b = true ↔ a ≠ b) := by
  have := C02_siqad_order.trichotomy a b
  refine ⟨?_, rfl, rfl, by simp [Siqad.neb, Bool.eq_false_iff, Siqad.eqb_iff]⟩
  grind [Siqad.leb, Siqad.gtb]

/-- C02. A live coordinate and its dead twin are unequal but unordered. -/
theorem C02_dead_twin (c : UCoord) (h : c.isDead = false) :
    UCoord.eqb c c.getDead = false ∧ UCoord.ltb c c.getDead = false ∧
    UCoord.ltb c.getDead c = false := by
  have h1 := C02_ucoord_order.trichotomy c c.getDead
  have h2 := C01_get_dead c
  have h3 : UCoord.eqb c c.getDead = false := by
    rw [Bool.eq_false_iff]; intro h'
    rw [UCoord.eqb_iff] at h'; rw [h'] at h; simp [h2.1] at h
  grind

/-- C02. The documented meaning of the orderings: by layer, then row, then column (offset/cube);
by row, then sub-row, then column (SiQAD). -/
theorem C02_lexicographic :
    (∀ a b : UCoord, UCoord.ltb a b = true ↔ a.z.toNat < b.z.toNat ∨ (a.z.toNat = b.z.toNat ∧
      (a.y.toNat < b.y.toNat ∨ (a.y.toNat = b.y.toNat ∧ a.x.toNat < b.x.toNat)))) ∧
    (∀ a b : Cube, Cube.ltb a b = true ↔ a.z < b.z ∨ (a.z = b.z ∧
      (a.y < b.y ∨ (a.y = b.y ∧ a.x < b.x)))) ∧
    (∀ a b : Siqad, Siqad.ltb a b = true ↔
      2 * a.y + (if a.z then 1 else 0) < 2 * b.y + (if b.z then 1 else 0) ∨
      (2 * a.y + (if a.z then 1 else 0) = 2 * b.y + (if b.z then 1 else 0) ∧ a.x < b.x)) := by
  refine ⟨UCoord.ltb_iff, Cube.ltb_iff, fun a b => ?_⟩
  rw [Siqad.ltb_iff]
  unfold Siqad.zi
  split <;> split <;> omega

/-! ## C03: iteration -/

/-- Spec: `c` is a live coordinate inside the closed box of the aspect ratio. -/
def InBoxU (ar c : UCoord) : Prop :=
  c.isDead = false ∧ c.x.toNat ≤ ar.x.toNat ∧ c.y.toNat ≤ ar.y.toNat ∧ c.z.toNat ≤ ar.z.toNat

private theorem inBoxU_iff (ar c : UCoord) : InBoxU ar c ↔ UCoord.In ar c := by
  have : c.isDead = false ↔ c.d = 0#1 := by simp [UCoord.isDead]
  simp [InBoxU, UCoord.In, this]

private theorem wrap_self_U (ar c : UCoord) (h : c.x.toNat ≤ ar.x.toNat ∧ c.y.toNat ≤ ar.y.toNat ∧
    c.z.toNat ≤ ar.z.toNat) : UCoord.wrap c ar = c := by
  have q1 : ¬ (c.x > ar.x) := by simp only [gt_iff_lt, BitVec.lt_def]; omega
  have q2 : ¬ (c.y > ar.y) := by simp only [gt_iff_lt, BitVec.lt_def]; omega
  have q3 : ¬ (c.z > ar.z) := by simp only [gt_iff_lt, BitVec.lt_def]; omega
  simp [UCoord.wrap, q1, q2, q3]

/-- C03 (offset coordinates). Iterating over all coordinates of a layout terminates within
`volume` steps, visits exactly the coordinates of the box, each once and in increasing order.
The bounds on `ar` exclude the two extents at which the 31-bit increment wraps. -/
theorem C03_ucoord_all (ar : UCoord) (hx : ar.x.toNat < 2^31 - 1) (hy : ar.y.toNat < 2^31 - 1)
    (fuel : Nat) (hf : volumeU ar ≤ fuel) :
    ∃ L, coordinatesU ar UCoord.default UCoord.default fuel = some L ∧
      (∀ c, c ∈ L ↔ InBoxU ar c) ∧ L.Pairwise (fun a b => UCoord.ltb a b = true) ∧
      L.length = volumeU ar := by
  have hdd : UCoord.default.isDead = true := by decide
  have e1 : UCoord.iterStart ar ar.getDead = ar.getDead := by
    apply wrap_self_U; rw [UCoord.getDead_eq]; simp
  have e2 : UCoord.iterStart ar (UCoord.mk3 0 0 0) = UCoord.mk3 0 0 0 := by
    apply wrap_self_U; simp [UCoord.mk3]
  have hin : UCoord.In ar (UCoord.mk3 0 0 0) := by simp [UCoord.In, UCoord.mk3]
  have hvol : UCoord.meas ar (UCoord.mk3 0 0 0) + 1 = volumeU ar := by
    simp only [UCoord.meas, UCoord.mk3, volumeU]
    simp only [BitVec.ofNat_eq_ofNat, BitVec.toNat_ofNat, Nat.zero_mod, Nat.sub_zero]
    rw [Nat.mul_comm ((ar.x.toNat+1) * (ar.y.toNat+1)), ← Nat.mul_assoc, Nat.mul_right_comm,
      Nat.succ_mul ar.z.toNat, ← Nat.add_assoc, Nat.succ_mul (ar.z.toNat * _ + _)]
    grind
  obtain ⟨L, hL, hmem, hpw, hlen⟩ := UCoord.range_spec ar hx hy ar.getDead (Or.inl rfl)
    (UCoord.mk3 0 0 0) (Or.inr ⟨hin, Or.inl rfl⟩) fuel (by omega)
  refine ⟨L, ?_, ?_, hpw, ?_⟩
  · simp only [coordinatesU, hdd, if_true, e1, e2, hL]
  · intro c
    rw [hmem, inBoxU_iff]
    constructor
    · exact fun h => h.1
    · intro h
      refine ⟨h, hin, ?_, Or.inl rfl⟩
      rw [UCoord.ltb_iff]; simp [UCoord.mk3]
  · have : UCoord.mk3 0 0 0 ≠ ar.getDead := by
      rw [UCoord.getDead_eq]; intro h; simp [UCoord.mk3, UCoord.mk.injEq] at h
    rw [if_pos rfl, if_neg this] at hlen
    omega

example : ∃ L, coordinatesU (UCoord.mk3 2 1 1) UCoord.default UCoord.default 12 = some L ∧
    L.length = 12 := by
  obtain ⟨L, h, _, _, h'⟩ := C03_ucoord_all (UCoord.mk3 2 1 1) (by decide) (by decide) 12 (by decide)
  exact ⟨L, h, h'⟩

/-- C03 (offset coordinates, sub-range). Iterating from `start` to `stop` (both in the box,
`start ≤ stop`) visits exactly the coordinates `c` of the box with `start ≤ c < stop`. -/
theorem C03_ucoord_range (ar start stop : UCoord) (hx : ar.x.toNat < 2^31 - 1)
    (hy : ar.y.toNat < 2^31 - 1) (h1 : InBoxU ar start) (h2 : InBoxU ar stop)
    (hle : UCoord.leb start stop = true) (fuel : Nat) (hf : volumeU ar ≤ fuel) :
    ∃ L, coordinatesU ar start stop fuel = some L ∧
      (∀ c, c ∈ L ↔ InBoxU ar c ∧ UCoord.leb start c = true ∧ UCoord.ltb c stop = true) ∧
      L.Pairwise (fun a b => UCoord.ltb a b = true) := by
  have e1 : UCoord.iterStart ar start = start := wrap_self_U _ _ h1.2
  have e2 : UCoord.iterStart ar stop = stop := wrap_self_U _ _ h2.2
  have hm : UCoord.meas ar start < fuel := by
    refine Nat.lt_of_lt_of_le ?_ hf
    simp only [UCoord.meas, volumeU]
    have a1 : (ar.z.toNat - start.z.toNat) * (ar.y.toNat + 1) ≤ ar.z.toNat * (ar.y.toNat + 1) :=
      Nat.mul_le_mul_right _ (by omega)
    have a2 : ((ar.z.toNat - start.z.toNat) * (ar.y.toNat + 1) + (ar.y.toNat - start.y.toNat)) *
        (ar.x.toNat + 1) ≤ (ar.z.toNat * (ar.y.toNat + 1) + ar.y.toNat) * (ar.x.toNat + 1) :=
      Nat.mul_le_mul_right _ (by omega)
    have a3 : (ar.x.toNat + 1) * (ar.y.toNat + 1) * (ar.z.toNat + 1) =
        (ar.z.toNat * (ar.y.toNat + 1) + ar.y.toNat) * (ar.x.toNat + 1) + (ar.x.toNat + 1) := by
      grind
    omega
  have hb := (inBoxU_iff ar stop).1 h2
  have ha := (inBoxU_iff ar start).1 h1
  have hnd : stop ≠ ar.getDead := by
    intro h; rw [h, UCoord.getDead_eq] at hb; have := hb.1; simp at this
  have hcur : start = stop ∨ (UCoord.In ar start ∧ (stop = ar.getDead ∨ UCoord.ltb start stop = true)) := by
    rcases ((C02_ucoord_derived start stop).1).1 hle with h | h
    · exact Or.inr ⟨ha, Or.inr h⟩
    · left; apply UCoord.ext_nat (by rw [ha.1, hb.1]) <;> simp [h]
  obtain ⟨L, hL, hmem, hpw, _⟩ := UCoord.range_spec ar hx hy stop (Or.inr hb) start hcur fuel hm
  refine ⟨L, ?_, ?_, hpw⟩
  · simp only [coordinatesU, h1.1, h2.1, Bool.false_eq_true, if_false, e1, e2, hL]
  · intro c
    rw [hmem, inBoxU_iff]
    simp only [UCoord.leb, UCoord.gtb, hnd, false_or, ha, true_and]
    simp

example : ∃ L, coordinatesU (UCoord.mk3 2 1 1) (UCoord.mk3 1 0 0) (UCoord.mk3 1 0 1) 12 = some L ∧
    UCoord.mk3 0 1 0 ∈ L := by
  obtain ⟨L, h, hm, _⟩ := C03_ucoord_range (UCoord.mk3 2 1 1) (UCoord.mk3 1 0 0) (UCoord.mk3 1 0 1)
    (by decide) (by decide) (by unfold InBoxU; decide) (by unfold InBoxU; decide) (by decide) 12 (by decide)
  exact ⟨L, h, (hm _).2 ⟨by unfold InBoxU; decide, by decide, by decide⟩⟩

/-- C03 (ground layer). `ground_coordinates` visits exactly the in-bounds coordinates with `z = 0`. -/
theorem C03_ucoord_ground (ar : UCoord) (hx : ar.x.toNat < 2^31 - 1) (hy : ar.y.toNat < 2^31 - 1)
    (fuel : Nat) (hf : areaU ar ≤ fuel) :
    ∃ L, groundCoordinatesU ar UCoord.default UCoord.default fuel = some L ∧
      (∀ c, c ∈ L ↔ (InBoxU ar c ∧ c.z = 0)) ∧ L.Pairwise (fun a b => UCoord.ltb a b = true) ∧
      L.length = areaU ar := by
  have e : volumeU (UCoord.mk3 ar.x ar.y 0) = areaU ar := by simp [volumeU, areaU, UCoord.mk3]
  obtain ⟨L, h1, h2, h3, h4⟩ := C03_ucoord_all (UCoord.mk3 ar.x ar.y 0) hx hy fuel (by rw [e]; exact hf)
  refine ⟨L, h1, ?_, h3, by rw [h4, e]⟩
  intro c
  rw [h2]
  simp only [InBoxU, UCoord.mk3]
  have := c.z.isLt
  constructor
  · rintro ⟨a, b, c', d⟩
    have hz : c.z = 0 := by rw [← BitVec.toNat_inj]; simpa using d
    exact ⟨⟨a, b, c', by rw [hz]; simp⟩, hz⟩
  · rintro ⟨⟨a, b, c', d⟩, hz⟩
    exact ⟨a, b, c', by rw [hz]; exact Nat.le_refl _⟩

/-- C03 (boundary of the claim). At the largest representable column the iterator is stuck in row
zero: the successor of the last cell of row 0 is the first cell of row 0, so the second row of a
two-row layout is never visited. This is why `C03_ucoord_all` excludes that extent. -/
theorem C03_ucoord_max_column_stuck :
    UCoord.iterNext (UCoord.mk3 0x7fffffff 1 0) (UCoord.mk3 0x7fffffff 0 0) = UCoord.mk3 0 0 0 := by
  decide

/-- C03 (cube coordinates). -/
theorem C03_cube_all (ar : Cube) (hx : 0 ≤ ar.x) (hy : 0 ≤ ar.y) (hz : 0 ≤ ar.z)
    (fuel : Nat) (hf : volumeCube ar ≤ fuel) :
    ∃ L, coordinatesCube ar Cube.default Cube.default fuel = some L ∧
      (∀ c, c ∈ L ↔ (c.d = false ∧ 0 ≤ c.x ∧ c.x ≤ ar.x ∧ 0 ≤ c.y ∧ c.y ≤ ar.y ∧ 0 ≤ c.z ∧ c.z ≤ ar.z)) ∧
      L.Pairwise (fun a b => Cube.ltb a b = true) ∧ L.length = volumeCube ar := by
  obtain ⟨ad, az, ay, ax⟩ := ar
  obtain ⟨X, rfl⟩ := Int.eq_ofNat_of_zero_le hx
  obtain ⟨Y, rfl⟩ := Int.eq_ofNat_of_zero_le hy
  obtain ⟨Z, rfl⟩ := Int.eq_ofNat_of_zero_le hz
  generalize har : (⟨ad, Z, Y, X⟩ : Cube) = ar at *
  have e1 : Cube.iterStart ar ar.getDead = ar.getDead := by
    subst har
    have h1 : max (X : Int) 0 = X := by omega
    have h2 : max (Y : Int) 0 = Y := by omega
    have h3 : max (Z : Int) 0 = Z := by omega
    simp [Cube.iterStart, Cube.wrap, Cube.getDead, h1, h2, h3]
  have e2 : Cube.iterStart ar (Cube.mk3 0 0 0) = Cube.mk3 0 0 0 := by
    subst har
    have h1 : ¬ (0 > (X : Int)) := by omega
    have h2 : ¬ (0 > (Y : Int)) := by omega
    have h3 : ¬ (0 > (Z : Int)) := by omega
    simp [Cube.iterStart, Cube.wrap, Cube.mk3, h1, h2, h3]
  have hin : Cube.In ar (Cube.mk3 0 0 0) := by
    subst har; simp [Cube.In, Cube.mk3]
  have hvol : Cube.meas ar (Cube.mk3 0 0 0) + 1 = volumeCube ar := by
    subst har
    simp only [Cube.meas, Cube.mk3, volumeCube, integralAbs, Int.sub_zero, Int.natAbs_natCast, Int.toNat_natCast]
    grind
  obtain ⟨L, hL, hmem, hpw, hlen⟩ := Cube.range_spec ar ar.getDead (Or.inl rfl)
    (Cube.mk3 0 0 0) (Or.inr ⟨hin, Or.inl rfl⟩) fuel (by omega)
  refine ⟨L, ?_, ?_, hpw, ?_⟩
  · simp only [coordinatesCube, Cube.default, if_true, e1, e2, hL]
  · intro c
    rw [hmem]
    constructor
    · exact fun h => h.1
    · intro h
      refine ⟨h, hin, ?_, Or.inl rfl⟩
      rw [Cube.ltb_iff]; simp only [Cube.mk3]; omega
  · have : Cube.mk3 0 0 0 ≠ ar.getDead := by
      intro h; simp [Cube.mk3, Cube.getDead] at h
    rw [if_pos rfl, if_neg this] at hlen
    omega

example : ∃ L, coordinatesCube (Cube.mk3 3 2 2) Cube.default Cube.default 36 = some L ∧
    L.length = 36 := by
  obtain ⟨L, h, _, _, h'⟩ := C03_cube_all (Cube.mk3 3 2 2) (by decide) (by decide) (by decide) 36 (by decide)
  exact ⟨L, h, h'⟩

/-- C03 (SiQAD coordinates). The layout normalises the aspect ratio so that both sub-rows of every
row are part of it; iteration then visits both sub-rows of all rows `0..y`. -/
theorem C03_siqad_all (dim : Siqad) (hx : 0 ≤ dim.x) (hy : 0 ≤ dim.y)
    (fuel : Nat) (hf : areaSiqad (Siqad.initializeDimension dim) ≤ fuel) :
    ∃ L, coordinatesSiqad dim Siqad.default Siqad.default fuel = some L ∧
      (∀ c, c ∈ L ↔ (c.d = false ∧ 0 ≤ c.x ∧ c.x ≤ dim.x ∧ 0 ≤ c.y ∧ c.y ≤ dim.y)) ∧
      L.Pairwise (fun a b => Siqad.ltb a b = true) ∧
      L.length = areaSiqad (Siqad.initializeDimension dim) := by
  obtain ⟨ad, az, ay, ax⟩ := dim
  obtain ⟨X, rfl⟩ := Int.eq_ofNat_of_zero_le hx
  obtain ⟨Y, rfl⟩ := Int.eq_ofNat_of_zero_le hy
  have hiz : (Siqad.initializeDimension ⟨ad, az, Y, X⟩).z = true := rfl
  generalize har : Siqad.initializeDimension (⟨ad, az, Y, X⟩ : Siqad) = ar at *
  have e1 : Siqad.iterStart ar ar.getDead = ar.getDead := by
    subst har
    have h1 : max (X : Int) 0 = X := by omega
    have h2 : max (Y : Int) 0 = Y := by omega
    simp [Siqad.iterStart, Siqad.wrap, Siqad.getDead, Siqad.initializeDimension, Siqad.mk3, Siqad.zi, h1, h2]
  have e2 : Siqad.iterStart ar (Siqad.mk3 0 0 false) = Siqad.mk3 0 0 false := by
    subst har
    have h1 : ¬ (0 > (X : Int)) := by omega
    have h2 : ¬ (0 > (Y : Int)) := by omega
    simp [Siqad.iterStart, Siqad.wrap, Siqad.mk3, Siqad.initializeDimension, Siqad.zi, h1, h2]
  have hin : Siqad.In ar (Siqad.mk3 0 0 false) := by
    subst har; simp [Siqad.In, Siqad.mk3, Siqad.initializeDimension]
  have hvol : Siqad.meas ar (Siqad.mk3 0 0 false) + 1 = areaSiqad ar := by
    subst har
    simp only [Siqad.meas, Siqad.mk3, areaSiqad, integralAbs, Siqad.initializeDimension, Siqad.zi,
      Int.sub_zero, Int.natAbs_natCast, Int.toNat_natCast]
    simp
    rw [show (2 * (Y : Int) + 1).toNat = 2 * Y + 1 by omega, Nat.mul_comm (X + 1), Nat.succ_mul (2 * Y + 1)]
    omega
  obtain ⟨L, hL, hmem, hpw, hlen⟩ := Siqad.range_spec ar hiz ar.getDead (Or.inl rfl)
    (Siqad.mk3 0 0 false) (Or.inr ⟨hin, Or.inl rfl⟩) fuel (by omega)
  have hbox : ∀ c : Siqad, Siqad.In ar c ↔ (c.d = false ∧ 0 ≤ c.x ∧ c.x ≤ X ∧ 0 ≤ c.y ∧ c.y ≤ Y) := by
    subst har; intro c; rfl
  refine ⟨L, ?_, ?_, hpw, ?_⟩
  · simp only [coordinatesSiqad, Siqad.default, if_true, har, e1, e2, hL]
  · intro c
    rw [hmem]
    constructor
    · exact fun h => (hbox c).1 h.1
    · intro h
      refine ⟨(hbox c).2 h, hin, ?_, Or.inl rfl⟩
      have : 0 ≤ c.zi := by unfold Siqad.zi; split <;> omega
      rw [Siqad.ltb_iff, show (Siqad.mk3 0 0 false).zi = 0 from rfl]; simp only [Siqad.mk3]; omega
  · have : Siqad.mk3 0 0 false ≠ ar.getDead := by
      intro h; simp [Siqad.mk3, Siqad.getDead] at h
    rw [if_pos rfl, if_neg this] at hlen
    omega

example : ∃ L, coordinatesSiqad (Siqad.mk3 3 2 false) Siqad.default Siqad.default 24 = some L ∧
    L.length = 24 := by
  obtain ⟨L, h, _, _, h'⟩ := C03_siqad_all (Siqad.mk3 3 2 false) (by decide) (by decide) 24 (by decide)
  exact ⟨L, h, h'⟩

/-- C03. An iterator over cube coordinates started anywhere at or before the end of a layout begins
at the start with its negative components replaced by zero. -/
theorem C03_cube_start_clamped (ar start : Cube) (hx : start.x ≤ ar.x) (hy : start.y ≤ ar.y)
    (hz : start.z ≤ ar.z) (h0 : 0 ≤ ar.x ∧ 0 ≤ ar.y ∧ 0 ≤ ar.z) (hd : start.d = false) :
    Cube.iterStart ar start = Cube.mk3 (max start.x 0) (max start.y 0) (max start.z 0) := by
  obtain ⟨d, z, y, x⟩ := start
  simp only at hd hx hy hz; subst hd
  simp only [Cube.iterStart, Cube.wrap, Cube.mk3]
  have h1 : ¬ max x 0 > ar.x := by omega
  have h2 : ¬ max y 0 > ar.y := by omega
  have h3 : ¬ max z 0 > ar.z := by omega
  simp [h1, h2, h3]

example : Cube.iterStart (Cube.mk3 4 4 0) (Cube.mk3 (-2) 3 0) = Cube.mk3 0 3 0 :=
  C03_cube_start_clamped _ _ (by decide) (by decide) (by decide) (by decide) rfl

/-- C03 (boundary of the claim). The raw iterator over a SiQAD aspect ratio with `z = 0`, i.e.,
without the layout's normalisation, ends after the first sub-row and misses row 1. -/
theorem C03_siqad_raw_iterator_misses_rows :
    rangeLoop (Siqad.iterNext (Siqad.mk3 1 1 false)) (Siqad.mk3 1 1 false).getDead 10
      (Siqad.mk3 0 0 false) = some [Siqad.mk3 0 0 false, Siqad.mk3 1 0 false] := by decide

/-! ## C04: SiQAD ↔ fiction coordinates -/

/-- C04. The SiQAD row/sub-row of a fiction row `y` are the floor division and remainder by two. -/
theorem C04_to_siqad_meaning (c : Cube) :
    (toSiqadCoord c).x = c.x ∧ 2 * (toSiqadCoord c).y + (if (toSiqadCoord c).z then 1 else 0) = c.y := by
  obtain ⟨d, z, y, x⟩ := c
  simp only [toSiqadCoord, Siqad.mk3]
  grind

theorem toSiqad_live (c : Cube) : (toSiqadCoord c).d = false := by
  unfold toSiqadCoord; split <;> rfl

theorem toFiction_inrange (c : Siqad) (h1 : c.d = false)
    (h2 : -2147483648 ≤ 2 * c.y + (if c.z then 1 else 0))
    (h3 : 2 * c.y + (if c.z then 1 else 0) ≤ 2147483647) :
    toFictionCoord c = Cube.mk3 c.x (2 * c.y + (if c.z then 1 else 0)) 0 := by
  obtain ⟨d, z, y, x⟩ := c
  simp only at h1; subst h1
  cases z <;> simp [toFictionCoord, Siqad.zi, int32Max, int32Min, Cube.mk3] at * <;> grind

/-- C04. Converting a live SiQAD coordinate whose doubled row is an `int32_t` to a fiction
coordinate and back is the identity. -/
theorem C04_siqad_roundtrip (c : Siqad) (hd : c.d = false)
    (h1 : -2147483648 ≤ 2 * c.y + (if c.z then 1 else 0))
    (h2 : 2 * c.y + (if c.z then 1 else 0) ≤ 2147483647) :
    toSiqadCoord (toFictionCoord c) = c := by
  rw [toFiction_inrange c hd h1 h2]
  have m := C04_to_siqad_meaning (Cube.mk3 c.x (2 * c.y + (if c.z then 1 else 0)) 0)
  have hd' : (toSiqadCoord (Cube.mk3 c.x (2 * c.y + (if c.z then 1 else 0)) 0)).d = false := toSiqad_live _
  generalize toSiqadCoord (Cube.mk3 c.x (2 * c.y + (if c.z then 1 else 0)) 0) = e at *
  obtain ⟨d, z, y, x⟩ := c
  obtain ⟨d', z', y', x'⟩ := e
  simp only [Cube.mk3] at *
  cases z <;> cases z' <;> simp at * <;> grind

example : toSiqadCoord (toFictionCoord (Siqad.mk3 (-4) (-3) true)) = Siqad.mk3 (-4) (-3) true :=
  C04_siqad_roundtrip _ rfl (by decide) (by decide)

/-- C04. Converting a live ground-layer fiction coordinate to a SiQAD coordinate and back is the
identity, negative rows included. -/
theorem C04_cube_roundtrip (c : Cube) (hd : c.d = false) (hz : c.z = 0)
    (h1 : -2147483648 ≤ c.y) (h2 : c.y ≤ 2147483647) :
    toFictionCoord (toSiqadCoord c) = c := by
  obtain ⟨d, z, y, x⟩ := c
  simp only at hd hz h1 h2
  subst hd; subst hz
  simp only [toFictionCoord, toSiqadCoord, Siqad.zi, int32Max, int32Min, Cube.mk3, Siqad.mk3]
  grind

example : toFictionCoord (toSiqadCoord (Cube.mk3 5 (-7) 0)) = Cube.mk3 5 (-7) 0 :=
  C04_cube_roundtrip _ rfl rfl (by decide) (by decide)

/-- C04. Both conversions preserve the order of coordinates (in range, live). -/
theorem C04_order_preserved (a b : Siqad) (ha : a.d = false) (hb : b.d = false)
    (ha1 : -2147483648 ≤ 2 * a.y + (if a.z then 1 else 0))
    (ha2 : 2 * a.y + (if a.z then 1 else 0) ≤ 2147483647)
    (hb1 : -2147483648 ≤ 2 * b.y + (if b.z then 1 else 0))
    (hb2 : 2 * b.y + (if b.z then 1 else 0) ≤ 2147483647) :
    Cube.ltb (toFictionCoord a) (toFictionCoord b) = Siqad.ltb a b := by
  rw [Bool.eq_iff_iff, Cube.ltb_iff, (C02_lexicographic.2.2 a b)]
  obtain ⟨d, z, y, x⟩ := a
  obtain ⟨d', z', y', x'⟩ := b
  simp only at *
  subst ha; subst hb
  cases z <;> cases z' <;>
    simp only [toFictionCoord, Siqad.zi, int32Max, int32Min, Cube.mk3] at * <;> grind

example : Cube.ltb (toFictionCoord (Siqad.mk3 9 0 true)) (toFictionCoord (Siqad.mk3 0 1 false)) = true :=
  C04_order_preserved _ _ rfl rfl (by decide) (by decide) (by decide) (by decide)

/-- C04. Sum and difference of SiQAD coordinates are sum and difference of the fiction rows/columns. -/
theorem C04_arithmetic (a b : Siqad) :
    let row := fun c : Siqad => 2 * c.y + (if c.z then 1 else 0)
    (Siqad.add a b).x = a.x + b.x ∧ row (Siqad.add a b) = row a + row b ∧
    (Siqad.sub a b).x = a.x - b.x ∧ row (Siqad.sub a b) = row a - row b := by
  obtain ⟨d, z, y, x⟩ := a
  obtain ⟨d', z', y', x'⟩ := b
  cases z <;> cases z' <;> simp [Siqad.add, Siqad.sub, Siqad.mk3] <;> omega

/-- C04. The fiction row of a live SiQAD coordinate is the doubled row clamped to `int32_t`: out of
range rows saturate instead of overflowing. Dead coordinates convert to the dead default. -/
theorem C04_saturation (c : Siqad) (hd : c.d = false) :
    (toFictionCoord c).y = max (-2147483648) (min 2147483647 (2 * c.y + (if c.z then 1 else 0))) ∧
    (toFictionCoord c).x = c.x ∧ (toFictionCoord c).z = 0 ∧ (toFictionCoord c).d = false := by
  obtain ⟨d, z, y, x⟩ := c
  simp only at hd
  subst hd
  cases z <;> simp only [toFictionCoord, Siqad.zi, int32Max, int32Min, Cube.mk3] <;>
    refine ⟨?_, ?_, ?_, ?_⟩ <;> grind

example : (toFictionCoord (Siqad.mk3 3 1500000000 true)).y = 2147483647 := by decide

/-- C04. Sum and difference of cube coordinates are componentwise, live, and undo each other. -/
theorem C04_cube_arithmetic (a b : Cube) :
    Cube.add a b = Cube.mk3 (a.x + b.x) (a.y + b.y) (a.z + b.z) ∧
    Cube.sub a b = Cube.mk3 (a.x - b.x) (a.y - b.y) (a.z - b.z) ∧
    Cube.add (Cube.sub a b) b = Cube.mk3 a.x a.y a.z ∧
    Cube.sub (Cube.add a b) b = Cube.mk3 a.x a.y a.z := by
  refine ⟨rfl, rfl, ?_, ?_⟩ <;> simp [Cube.add, Cube.sub, Cube.mk3]

/-! ## C05: spanned area -/

/-- C05. `all_coordinates_in_spanned_area` lists exactly the ground-layer cells of the rectangle
spanned by the two corners, each once, in row-major order. -/
theorem C05_spanned_area (a b : Cube) (fuel : Nat)
    (hf : ((max a.x b.x - min a.x b.x).toNat + 1) * ((max a.y b.y - min a.y b.y).toNat + 1) ≤ fuel) :
    ∃ L, allCoordinatesInSpannedArea a b fuel = some L ∧
      (∀ c : Cube, c ∈ L ↔ c.d = false ∧ c.z = 0 ∧ min a.x b.x ≤ c.x ∧ c.x ≤ max a.x b.x ∧
        min a.y b.y ≤ c.y ∧ c.y ≤ max a.y b.y) ∧
      L.Pairwise (fun a b => Cube.ltb a b = true) ∧
      L.length = ((max a.x b.x - min a.x b.x).toNat + 1) * ((max a.y b.y - min a.y b.y).toNat + 1) := by
  simp only [allCoordinatesInSpannedArea]
  have e : spanMeas (Cube.mk3 (max a.x b.x) (max a.y b.y) 0)
      ((Cube.mk3 (max a.x b.x) (max a.y b.y) 0).x - (Cube.mk3 (min a.x b.x) (min a.y b.y) 0).x).toNat
      (Cube.mk3 (min a.x b.x) (min a.y b.y) 0) =
      ((max a.x b.x - min a.x b.x).toNat + 1) * ((max a.y b.y - min a.y b.y).toNat + 1) := by
    unfold spanMeas
    rw [if_neg (by simp only [Cube.mk3]; omega)]
    simp only [Cube.mk3]
    · rw [Nat.mul_comm ((max a.x b.x - min a.x b.x).toNat + 1), Nat.succ_mul]; omega
  obtain ⟨L, h1, h2, h3, h4⟩ := spanLoop_spec (Cube.mk3 (min a.x b.x) (min a.y b.y) 0)
    (Cube.mk3 (max a.x b.x) (max a.y b.y) 0) (by simp only [Cube.mk3]; omega) rfl rfl _
    (Cube.mk3 (min a.x b.x) (min a.y b.y) 0) rfl rfl (by simp only [Cube.mk3]; omega)
    (by simp only [Cube.mk3]; omega) (by simp only [Cube.mk3]; omega)
    (by simp only [Cube.mk3]; omega) e fuel hf
  refine ⟨L, h1, ?_, h3, h4⟩
  intro c
  rw [h2]
  simp only [Cube.mk3]
  grind

example : ∃ L, allCoordinatesInSpannedArea (Cube.mk3 2 (-1) 0) (Cube.mk3 0 1 0) 9 = some L ∧
    L.length = 9 := by
  obtain ⟨L, h, _, _, h'⟩ := C05_spanned_area (Cube.mk3 2 (-1) 0) (Cube.mk3 0 1 0) 9 (by decide)
  exact ⟨L, h, h'⟩

/-- C05. The result does not depend on the order of the two corners, nor on which of the two
diagonals of the rectangle they span. -/
theorem C05_corner_order (a b : Cube) (fuel : Nat) :
    allCoordinatesInSpannedArea a b fuel = allCoordinatesInSpannedArea b a fuel ∧
    allCoordinatesInSpannedArea a b fuel =
      allCoordinatesInSpannedArea { a with x := b.x } { b with x := a.x } fuel := by
  simp only [allCoordinatesInSpannedArea, Int.min_comm, Int.max_comm, and_self]

/-- C05 (SiQAD). For live corners in range, every listed SiQAD cell lies in the rectangle measured
in half-rows, each such cell is listed, and none twice. -/
theorem C05_spanned_area_siqad (a b : Siqad) (ha : a.d = false) (hb : b.d = false)
    (ha1 : -2147483648 ≤ 2 * a.y + (if a.z then 1 else 0))
    (ha2 : 2 * a.y + (if a.z then 1 else 0) ≤ 2147483647)
    (hb1 : -2147483648 ≤ 2 * b.y + (if b.z then 1 else 0))
    (hb2 : 2 * b.y + (if b.z then 1 else 0) ≤ 2147483647) :
    let row := fun c : Siqad => 2 * c.y + (if c.z then 1 else 0)
    ∃ n, ∀ fuel, n ≤ fuel → ∃ L, allCoordinatesInSpannedAreaSiqad a b fuel = some L ∧
      (∀ c : Siqad, c ∈ L ↔ c.d = false ∧ min a.x b.x ≤ c.x ∧ c.x ≤ max a.x b.x ∧
        min (row a) (row b) ≤ row c ∧ row c ≤ max (row a) (row b)) ∧ L.Nodup := by
  intro row
  have hfa : ∀ c : Siqad, c.d = false → -2147483648 ≤ 2 * c.y + (if c.z then 1 else 0) →
      2 * c.y + (if c.z then 1 else 0) ≤ 2147483647 → toFictionCoord c = Cube.mk3 c.x (row c) 0 := by
    intro c h1 h2 h3
    exact toFiction_inrange c h1 h2 h3
  have ea := hfa a ha ha1 ha2
  have eb := hfa b hb hb1 hb2
  refine ⟨((max (toFictionCoord a).x (toFictionCoord b).x - min (toFictionCoord a).x (toFictionCoord b).x).toNat + 1) *
    ((max (toFictionCoord a).y (toFictionCoord b).y - min (toFictionCoord a).y (toFictionCoord b).y).toNat + 1),
    fun fuel hf => ?_⟩
  obtain ⟨L, h1, h2, h3, h4⟩ := C05_spanned_area (toFictionCoord a) (toFictionCoord b) fuel hf
  refine ⟨L.map toSiqadCoord, by simp [allCoordinatesInSpannedAreaSiqad, h1], ?_, ?_⟩
  · intro c
    rw [List.mem_map]
    rw [ea, eb] at h2
    simp only [Cube.mk3] at h2
    have hra : -2147483648 ≤ row a ∧ row a ≤ 2147483647 := ⟨ha1, ha2⟩
    have hrb : -2147483648 ≤ row b ∧ row b ≤ 2147483647 := ⟨hb1, hb2⟩
    constructor
    · rintro ⟨e, he, rfl⟩
      have hm := C04_to_siqad_meaning e
      have hd : (toSiqadCoord e).d = false := by unfold toSiqadCoord; split <;> rfl
      have := (h2 e).1 he
      have hr : row (toSiqadCoord e) = e.y := hm.2
      refine ⟨hd, ?_⟩
      rw [hm.1, hr]
      omega
    · rintro ⟨hd, q1, q2, q3, q4⟩
      have hc1 : -2147483648 ≤ row c := by omega
      have hc2 : row c ≤ 2147483647 := by omega
      refine ⟨toFictionCoord c, ?_, C04_siqad_roundtrip c hd hc1 hc2⟩
      rw [hfa c hd hc1 hc2, h2]
      exact ⟨rfl, rfl, q1, q2, q3, q4⟩
  · rw [List.Nodup, List.pairwise_map]
    refine (List.Pairwise.and_mem.1 h3).imp ?_
    rintro u v ⟨hu, hv, huv⟩ huv'
    have m1 := C04_to_siqad_meaning u
    have m2 := C04_to_siqad_meaning v
    rw [huv'] at m1
    rw [Cube.ltb_iff] at huv
    have := (h2 u).1 hu
    have := (h2 v).1 hv
    omega

end Verif.Coordinates
