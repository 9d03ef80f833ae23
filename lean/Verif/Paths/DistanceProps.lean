import Verif.Paths.OptimalProps

/-!
# C25: the distance functions

The distances look at the column only, so "zero exactly on equal positions" refers to `x` and `y`.
-/
namespace Verif.Paths

open Verif.Layouts Verif.Clocking

/-- C25. The Manhattan distance is a metric on columns. -/
theorem C25_manhattan_metric (a b c : Coord) :
    manhattan a b = (max a.x b.x - min a.x b.x) + (max a.y b.y - min a.y b.y) ∧
    (manhattan a b = 0 ↔ a.x = b.x ∧ a.y = b.y) ∧ manhattan a b = manhattan b a ∧
    manhattan a c ≤ manhattan a b + manhattan b c := by
  unfold manhattan; refine ⟨?_, ?_, ?_, ?_⟩ <;> omega

/-- C25. The Chebyshev distance is a metric on columns. -/
theorem C25_chebyshev_metric (a b c : Coord) :
    (∀ k, chebyshev a b ≤ k ↔ a.x ≤ b.x + k ∧ b.x ≤ a.x + k ∧ a.y ≤ b.y + k ∧ b.y ≤ a.y + k) ∧
    (chebyshev a b = 0 ↔ a.x = b.x ∧ a.y = b.y) ∧ chebyshev a b = chebyshev b a ∧
    chebyshev a c ≤ chebyshev a b + chebyshev b c := by
  unfold chebyshev; refine ⟨?_, ?_, ?_, ?_⟩ <;> omega

/-- C25. The 2DDWave distance is zero exactly on equal columns, the Manhattan distance towards the south
east and practically infinite otherwise, and satisfies the triangle inequality (coordinates have 31
bits). -/
theorem C25_twoddwave (a b c : Coord) (hc : ∀ e ∈ [a, b, c], e.x < 2^31 ∧ e.y < 2^31) :
    (twoddwaveDistance a b = 0 ↔ a.x = b.x ∧ a.y = b.y) ∧
    (twoddwaveDistance a b < 4294967295 ↔ a.x ≤ b.x ∧ a.y ≤ b.y) ∧
    (a.x ≤ b.x ∧ a.y ≤ b.y → twoddwaveDistance a b = (b.x - a.x) + (b.y - a.y)) ∧
    twoddwaveDistance a c ≤ twoddwaveDistance a b + twoddwaveDistance b c := by
  simp only [List.mem_cons, List.not_mem_nil, or_false, forall_eq_or_imp, forall_eq] at hc
  unfold twoddwaveDistance manhattan
  refine ⟨by split_ifs <;> constructor <;> intro h' <;> first | omega | exact absurd h' (by decide), by split_ifs <;> constructor <;> intro _ <;> omega, fun h => by rw [if_pos h]; omega,
    by split_ifs <;> omega⟩

/-- C25. The squared Euclidean distance is symmetric and separates columns, but it violates the triangle
inequality and overestimates the length of shortest paths. -/
theorem C25_squared_euclidean (a b : Coord) :
    squaredEuclidean a b = (max a.x b.x - min a.x b.x) ^ 2 + (max a.y b.y - min a.y b.y) ^ 2 ∧
    squaredEuclidean a b = squaredEuclidean b a ∧ manhattan a b ≤ squaredEuclidean a b ∧
    ∃ c d e : Coord, squaredEuclidean c d + squaredEuclidean d e < squaredEuclidean c e := by
  have key : ∀ p q : Nat, (((p : Int) - q) * ((p : Int) - q)) = (((max p q - min p q) ^ 2 : Nat) : Int) := by
    intro p q
    rcases Nat.le_total p q with h | h
    · rw [Nat.max_eq_right h, Nat.min_eq_left h]; push_cast [h]; grind
    · rw [Nat.max_eq_left h, Nat.min_eq_right h]; push_cast [h]; grind
  have h1 : ∀ a b : Coord, squaredEuclidean a b =
      (max a.x b.x - min a.x b.x) ^ 2 + (max a.y b.y - min a.y b.y) ^ 2 := by
    intro a b
    unfold squaredEuclidean
    rw [key, key]
    omega
  refine ⟨h1 a b, ?_, ?_, ⟨⟨0, 0, 0, false⟩, ⟨1, 0, 0, false⟩, ⟨2, 0, 0, false⟩, by decide⟩⟩
  · rw [h1, h1, Nat.max_comm a.x, Nat.min_comm a.x, Nat.max_comm a.y, Nat.min_comm a.y]
  · rw [h1, (C25_manhattan_metric a b a).1]
    have : ∀ n : Nat, n ≤ n ^ 2 := fun n => by
      cases n with
      | zero => simp
      | succ n => rw [Nat.pow_two]; exact Nat.le_mul_of_pos_left _ (by omega)
    exact Nat.add_le_add (this _) (this _)

/-- Length of a path as the number of its steps bounds every function that changes by at most one. -/
private theorem bound_of_step (R : Coord → Coord → Prop) (d : Coord → Nat) (h : ∀ u v, R u v → d u ≤ 1 + d v) :
    ∀ (p : List Coord) (a b : Coord), p.IsChain R → p.head? = some a → p.getLast? = some b →
      d a ≤ (p.length - 1) + d b := by
  intro p
  induction p with
  | nil => intro a b _ h; simp at h
  | cons c p ih =>
    intro a b hc ha hb
    simp at ha; subst ha
    cases p with
    | nil => simp at hb; subst hb; simp
    | cons e p =>
      rw [List.isChain_cons_cons] at hc
      have h1 := ih e b hc.2 (by simp) (by simpa using hb)
      have h2 := h _ _ hc.1
      simp only [List.length_cons] at h1 ⊢
      omega

/-- C25. On Cartesian layouts no path from `a` to `b` has fewer steps than the Manhattan distance (and
hence than the Chebyshev distance). -/
theorem C25_manhattan_admissible (l : RLayout) (ht : l.tp = .cart) (crossings : Bool) (target : Coord)
    (a b : Coord) (p : List Coord) (hp : p.IsChain (Move l crossings target)) (ha : p.head? = some a)
    (hb : p.getLast? = some b) : chebyshev a b ≤ manhattan a b ∧ manhattan a b ≤ p.length - 1 := by
  refine ⟨by unfold chebyshev manhattan; omega, ?_⟩
  have := bound_of_step _ (fun c => manhattan c b) (fun u v h => manhattan_step ht b h) p a b hp ha hb
  have h0 : manhattan b b = 0 := by unfold manhattan; omega
  simp only [h0] at this
  exact this

/-- C25. On hexagonal layouts of every arrangement no path from `a` to `b` has fewer steps than the
Chebyshev distance. -/
theorem C25_chebyshev_admissible_hexagonal (l : RLayout) (r : Hex.Arr) (ht : l.tp = .hex r)
    (hX : l.m.X < 2^31 - 1) (hY : l.m.Y < 2^31 - 1) (crossings : Bool) (target : Coord)
    (a b : Coord) (hin : InBounds l.m a) (p : List Coord) (hp : p.IsChain (Move l crossings target))
    (ha : p.head? = some a) (hb : p.getLast? = some b) : chebyshev a b ≤ p.length - 1 := by
  have hstep : ∀ u v, InBounds l.m u → Move l crossings target u v → chebyshev u b ≤ 1 + chebyshev v b := by
    intro u v hu hm
    obtain ⟨n, hn, hx, hy⟩ := move_xy hm
    have hadj : n ∈ Hex.adjacentCoordinates r l.m u := by
      unfold RLayout.neighbours at hn
      rw [ht] at hn
      split at hn
      · exact (List.mem_filter.1 hn).1
      · exact hn
    have hnb := ((C09_adjacent_exact r l.m hX hY u n hu).1 hadj).2
    have hd : ((u.x : Int) - n.x).natAbs ≤ 1 ∧ ((u.y : Int) - n.y).natAbs ≤ 1 := by
      obtain ⟨-, hnb⟩ := hnb
      cases r <;> simp only [hexCentre, Hex.Arr.pointy, if_true, Bool.false_eq_true, if_false] at hnb <;> omega
    unfold chebyshev
    rw [hx, hy]
    omega
  have : ∀ (p : List Coord) (a : Coord), InBounds l.m a → p.IsChain (Move l crossings target) → p.head? = some a →
      p.getLast? = some b → chebyshev a b ≤ p.length - 1 := by
    intro p
    induction p with
    | nil => intro a _ _ h; simp at h
    | cons c p ih =>
      intro a hin hc ha hb
      simp at ha; subst ha
      cases p with
      | nil => simp at hb; subst hb; unfold chebyshev; simp
      | cons e p =>
        rw [List.isChain_cons_cons] at hc
        have h1 := ih e (Move.inBounds hX hY hin hc.1) hc.2 (by simp) (by simpa using hb)
        have h2 := hstep _ _ hin hc.1
        simp only [List.length_cons] at h1 ⊢
        omega
  exact this p a hin hp ha hb

/-- C25 (disagreement). The Manhattan distance, the default heuristic of `a_star`, overestimates the
length of paths on hexagonal layouts of every arrangement. -/
theorem C25_manhattan_overestimates_hexagonal (r : Hex.Arr) : ∃ (l : RLayout) (a b : Coord) (p : List Coord),
    l.tp = .hex r ∧ InBounds l.m a ∧ p.IsChain (Move l false b) ∧ p.head? = some a ∧ p.getLast? = some b ∧
    p.length - 1 < manhattan a b := by
  have key : ∀ (l : RLayout) (a m b : Coord), m ∈ l.succs false b a → b ∈ l.succs false b m →
      [a, m, b].IsChain (Move l false b) := by
    intro l a m b h1 h2
    rw [List.isChain_cons_cons, List.isChain_cons_cons]
    exact ⟨(mem_succs _ _ _ _ _).1 h1, (mem_succs _ _ _ _ _).1 h2, by simp⟩
  cases r
  · exact ⟨⟨.hex .oddRow, ⟨2, 2, 0⟩, none, fun _ => false, fun _ _ => false, fun _ _ => false⟩, ⟨0, 0, 0, false⟩,
      ⟨1, 2, 0, false⟩, [⟨0, 0, 0, false⟩, ⟨0, 1, 0, false⟩, ⟨1, 2, 0, false⟩], rfl, by decide,
      key _ _ _ _ (by decide) (by decide), rfl, rfl, by decide⟩
  · exact ⟨⟨.hex .evenRow, ⟨2, 2, 0⟩, none, fun _ => false, fun _ _ => false, fun _ _ => false⟩, ⟨0, 0, 0, false⟩,
      ⟨1, 2, 0, false⟩, [⟨0, 0, 0, false⟩, ⟨1, 1, 0, false⟩, ⟨1, 2, 0, false⟩], rfl, by decide,
      key _ _ _ _ (by decide) (by decide), rfl, rfl, by decide⟩
  · exact ⟨⟨.hex .oddColumn, ⟨2, 2, 0⟩, none, fun _ => false, fun _ _ => false, fun _ _ => false⟩, ⟨0, 0, 0, false⟩,
      ⟨2, 1, 0, false⟩, [⟨0, 0, 0, false⟩, ⟨1, 0, 0, false⟩, ⟨2, 1, 0, false⟩], rfl, by decide,
      key _ _ _ _ (by decide) (by decide), rfl, rfl, by decide⟩
  · exact ⟨⟨.hex .evenColumn, ⟨2, 2, 0⟩, none, fun _ => false, fun _ _ => false, fun _ _ => false⟩, ⟨0, 0, 0, false⟩,
      ⟨2, 1, 0, false⟩, [⟨0, 0, 0, false⟩, ⟨1, 1, 0, false⟩, ⟨2, 1, 0, false⟩], rfl, by decide,
      key _ _ _ _ (by decide) (by decide), rfl, rfl, by decide⟩

/-- A step on a 2DDWave-clocked Cartesian layout leads one tile to the east or to the south. -/
private theorem wave_step {l : RLayout} (ht : l.tp = .cart) {n : NumClks}
    (hs : l.scheme = some (twoddwaveClocking .cart n)) {cr : Bool} {t u v : Coord} (hm : Move l cr t u v) :
    (v.x = u.x + 1 ∧ v.y = u.y) ∨ (v.x = u.x ∧ v.y = u.y + 1) := by
  have h1 := move_cart ht hm
  obtain ⟨w, hw, hx, hy⟩ := move_xy hm
  unfold RLayout.neighbours at hw
  rw [hs] at hw
  have h2 := (List.mem_filter.1 hw).2
  have h3 : ((twoddwaveClocking .cart n).clock u + 1) % (twoddwaveClocking .cart n).numClocks =
      (twoddwaveClocking .cart n).clock w := by
    unfold isOutgoingClocked at h2
    split at h2
    · simp at h2
    · simpa using h2
  rw [(C10_linear_closed_form .cart n u).2.2.1, (C10_linear_closed_form .cart n w).2.2.1, ← hx, ← hy] at h3
  cases n <;> simp only [twoddwaveClocking, NumClks.val] at h3 <;> omega

/-- C25. On 2DDWave-clocked Cartesian layouts the 2DDWave distance is the length of every path. -/
theorem C25_twoddwave_exact (l : RLayout) (ht : l.tp = .cart) (n : NumClks)
    (hs : l.scheme = some (twoddwaveClocking .cart n)) (crossings : Bool) (target : Coord)
    (a b : Coord) (p : List Coord) (hp : p.IsChain (Move l crossings target)) (ha : p.head? = some a)
    (hb : p.getLast? = some b) : twoddwaveDistance a b = p.length - 1 := by
  have : ∀ (p : List Coord) (a : Coord), p.IsChain (Move l crossings target) → p.head? = some a →
      p.getLast? = some b → a.x ≤ b.x ∧ a.y ≤ b.y ∧ (b.x - a.x) + (b.y - a.y) + 1 = p.length := by
    intro p
    induction p with
    | nil => intro a _ h; simp at h
    | cons c p ih =>
      intro a hc ha hb
      simp at ha; subst ha
      cases p with
      | nil => simp at hb; subst hb; simp
      | cons e p =>
        rw [List.isChain_cons_cons] at hc
        have h1 := ih e hc.2 (by simp) (by simpa using hb)
        have h2 := wave_step ht hs hc.1
        simp only [List.length_cons] at h1 ⊢
        omega
  have h := this p a hp ha hb
  unfold twoddwaveDistance manhattan
  rw [if_pos ⟨h.1, h.2.1⟩]
  omega

/-- C25. On unobstructed 2DDWave-clocked Cartesian layouts the 2DDWave distance between ground
coordinates is finite exactly if there is a path. -/
theorem C25_twoddwave_reachable (l : RLayout) (ht : l.tp = .cart) (n : NumClks)
    (hs : l.scheme = some (twoddwaveClocking .cart n)) (ho : ∀ c, l.obstructed c = false)
    (hoc : ∀ c e, l.obstructedConn c e = false) (crossings : Bool) (a b : Coord) (ha : InBounds l.m a)
    (hb : InBounds l.m b) (hza : a.z = 0) (hzb : b.z = 0) :
    Relation.ReflTransGen (Move l crossings b) a b ↔ a.x ≤ b.x ∧ a.y ≤ b.y := by
  constructor
  · intro h
    suffices ∀ e, Relation.ReflTransGen (Move l crossings b) a e → a.x ≤ e.x ∧ a.y ≤ e.y from this b h
    intro e h
    induction h with
    | refl => exact ⟨le_refl _, le_refl _⟩
    | tail _ hm ih => have := wave_step ht hs hm; omega
  · have step : ∀ u v : Coord, InBounds l.m u → InBounds l.m v → u.z = 0 → v.z = 0 →
        ((v.x = u.x + 1 ∧ v.y = u.y) ∨ (v.x = u.x ∧ v.y = u.y + 1)) → Move l crossings b u v := by
      intro u v hu hv hzu hzv h
      have hadj : v ∈ Cart.adjacentCoordinates l.m u := by
        rw [(C07_adjacent_exact l.m u hu).1]
        exact ⟨hv, by rw [hzu, hzv], by omega⟩
      refine ⟨v, ?_, hoc _ _, Or.inl (ho _), Or.inl ?_⟩
      · unfold RLayout.neighbours
        rw [hs, ht]
        refine List.mem_filter.2 ⟨hadj, ?_⟩
        have hc : ((twoddwaveClocking .cart n).clock u + 1) % (twoddwaveClocking .cart n).numClocks =
            (twoddwaveClocking .cart n).clock v := by
          rw [(C10_linear_closed_form .cart n u).2.2.1, (C10_linear_closed_form .cart n v).2.2.1]
          cases n <;> simp only [twoddwaveClocking, NumClks.val] <;> omega
        have hne : (twoddwaveClocking .cart n).clock u ≠ (twoddwaveClocking .cart n).clock v := by
          rw [(C10_linear_closed_form .cart n u).2.2.1, (C10_linear_closed_form .cart n v).2.2.1]
          cases n <;> simp only [NumClks.val] <;> omega
        unfold isOutgoingClocked
        split
        · rename_i h'; exact absurd (by rw [h']) hne
        · simpa using hc
      · unfold Cart.below; rw [if_pos hzv]
    intro hle
    have hmain : ∀ (k : Nat) (a : Coord), InBounds l.m a → a.z = 0 → a.x ≤ b.x → a.y ≤ b.y →
        (b.x - a.x) + (b.y - a.y) = k → Relation.ReflTransGen (Move l crossings b) a b := by
      intro k
      induction k with
      | zero =>
        intro a ha hza h1 h2 h3
        have : a = b := by
          obtain ⟨ax, ay, az, ad⟩ := a
          obtain ⟨bx, b_y, bz, bd⟩ := b
          simp only [InBounds] at ha hb h1 h2 h3 hza hzb
          simp only [Coord.mk.injEq]
          exact ⟨by omega, by omega, by omega, by rw [ha.1, hb.1]⟩
        rw [this]
      | succ k ih =>
        intro a ha hza h1 h2 h3
        obtain ⟨d1, d2, d3, d4⟩ := ha
        obtain ⟨e1, e2, e3, e4⟩ := hb
        by_cases hx : a.x < b.x
        · have hi : InBounds l.m ⟨a.x + 1, a.y, 0, false⟩ := ⟨rfl, by dsimp only; omega, d3, by simp⟩
          refine Relation.ReflTransGen.head (step a _ ⟨d1, d2, d3, d4⟩ hi hza rfl (Or.inl ⟨rfl, rfl⟩)) ?_
          exact ih _ hi rfl (by dsimp only; omega) (by dsimp only; omega) (by dsimp only; omega)
        · have hi : InBounds l.m ⟨a.x, a.y + 1, 0, false⟩ := ⟨rfl, d2, by dsimp only; omega, by simp⟩
          refine Relation.ReflTransGen.head (step a _ ⟨d1, d2, d3, d4⟩ hi hza rfl (Or.inr ⟨rfl, rfl⟩)) ?_
          exact ih _ hi rfl (by dsimp only; omega) (by dsimp only; omega) (by dsimp only; omega)
    exact hmain _ a ha hza hle.1 hle.2 rfl

-- the hypotheses are met by the demo layout of A* and by concrete paths
example : demoLayout.tp = .cart ∧ demoLayout.scheme = some (twoddwaveClocking .cart .four) ∧
    ([⟨0, 0, 0, false⟩, ⟨1, 0, 0, false⟩, ⟨1, 1, 0, false⟩, ⟨2, 1, 1, false⟩] : List Coord).IsChain
      (fun u v => v ∈ demoLayout.succs true ⟨4, 2, 0, false⟩ u) := by
  refine ⟨rfl, rfl, by decide +kernel⟩

end Verif.Paths
