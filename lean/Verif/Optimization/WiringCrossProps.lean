import Verif.Optimization.WiringCross
import Verif.Optimization.WiringSignals

/-!
# Wiring reduction: signals from crossings (C98)

## Specification

`UpstreamZ` follows a signal back through deleted wires to the first node that remains, with layers.
-/
namespace Verif.Wiring

open Verif.Paths

/-- The tile and layer at the end of the signal path that leads to a tile in a layer, over deleted tiles only, that is not
deleted itself. -/
inductive UpstreamZ (nodes : List Node) (del : List Tile) : Tile × Nat → Tile × Nat → Prop where
  | here (t : Tile) (z : Nat) : t ∉ del → UpstreamZ nodes del (t, z) (t, z)
  | back (n : Node) (u : Tile × Nat) : n ∈ nodes → n.tile ∈ del → UpstreamZ nodes del (n.source, n.sourceLayer) u →
      UpstreamZ nodes del (n.tile, n.layer) u

/-- What the layers of a well-formed layout look like: a node in the upper layer crosses a wire in the ground layer, signals
arrive somewhere, and a node with signals from two sides has two incoming signals. -/
structure Layered (nodes : List Node) : Prop where
  two : ∀ n ∈ nodes, n.fromWest = true → n.fromNorth = true → n.incoming = 2
  upper : ∀ n ∈ nodes, n.layer ≠ 0 → n.layer = 1 ∧ ∃ g ∈ nodes, g.tile = n.tile ∧ g.layer = 0 ∧ g.isWire = true ∧
    (n.toSouth = true → g.toEast = true) ∧ (n.toEast = true → g.toSouth = true)
  east : ∀ n ∈ nodes, n.toEast = true → ∃ m ∈ nodes, m.tile = (n.tile.1 + 1, n.tile.2) ∧ m.fromWest = true
  south : ∀ n ∈ nodes, n.toSouth = true → ∃ m ∈ nodes, m.tile = (n.tile.1, n.tile.2 + 1) ∧ m.fromNorth = true

/-! ## Lemmas -/

variable {dir : Dir} {w h : Nat} {nodes : List Node} {S : Search} {del : List Tile} {fs : List (Nat → Nat)}

theorem Layered.next_lane (L : Layered nodes) {n : Node} (hn : n ∈ nodes) (ht : n.toLane dir = true) :
    ∃ m ∈ nodes, m.tile = tileAt dir (lane dir n.tile + 1) (pos dir n.tile) ∧ m.fromLane dir = true := by
  cases dir
  · exact L.east n hn ht
  · exact L.south n hn ht

theorem Layered.next_pos (L : Layered nodes) {n : Node} (hn : n ∈ nodes) (ht : n.toPos dir = true) :
    ∃ m ∈ nodes, m.tile = tileAt dir (lane dir n.tile) (pos dir n.tile + 1) ∧ m.fromPos dir = true := by
  cases dir
  · exact L.south n hn ht
  · exact L.east n hn ht

theorem Layered.under (L : Layered nodes) {n : Node} (hn : n ∈ nodes) (hl : n.layer ≠ 0) (ht : n.toPos dir = true) :
    ∃ g ∈ nodes, g.tile = n.tile ∧ g.layer = 0 ∧ g.isWire = true ∧ g.toLane dir = true := by
  obtain ⟨-, g, g1, g2, g3, g4, g5, g6⟩ := L.upper n hn hl
  cases dir
  · exact ⟨g, g1, g2, g3, g4, g5 ht⟩
  · exact ⟨g, g1, g2, g3, g4, g6 ht⟩

/-- The straight wire above a deleted wire that turns into the next lane. -/
theorem Ctx.chain (C : Ctx dir w h nodes S del fs) {n : Node} (hn : n ∈ nodes) (hd : n.tile ∈ del) (ht : n.toLane dir = true) :
    ∃ (k : Nat) (m : Node), 0 < k ∧ k ≤ pos dir n.tile ∧ m ∈ nodes ∧
      m.tile = tileAt dir (lane dir n.tile) (pos dir n.tile - k) ∧ m.tile ∉ del ∧ m.toPos dir = true ∧
      UpstreamZ nodes del (n.tile, n.layer) (m.tile, m.layer) ∧
      (∀ j < k, ∃ v ∈ nodes, v.tile = tileAt dir (lane dir n.tile) (pos dir n.tile - j) ∧ v.tile ∈ del ∧ v.fromPos dir = true) ∧
      off fs (lane dir n.tile) (pos dir n.tile) + 1 = off fs (lane dir n.tile) (pos dir n.tile - k) + k := by
  have ha := (lane_le (dir := dir) (C.wf.inside n hn)).1
  obtain ⟨e1, e2, e3, e4, e5, e6⟩ := C.deleted hn hd
  have aux : ∀ (d k : Nat) (m : Node), d + k = pos dir n.tile → 0 < k → m ∈ nodes → m.toPos dir = true →
      m.tile = tileAt dir (lane dir n.tile) d →
      (∀ v, UpstreamZ nodes del (m.tile, m.layer) v → UpstreamZ nodes del (n.tile, n.layer) v) →
      (∀ j < k, ∃ v ∈ nodes, v.tile = tileAt dir (lane dir n.tile) (pos dir n.tile - j) ∧ v.tile ∈ del ∧ v.fromPos dir = true) →
      bendBefore dir nodes (lane dir n.tile) (pos dir n.tile) = bendBefore dir nodes (lane dir n.tile) (d + 1) →
      off fs (lane dir n.tile) (pos dir n.tile) + 1 = off fs (lane dir n.tile) (d + 1) + k →
      ∃ (k : Nat) (m : Node), 0 < k ∧ k ≤ pos dir n.tile ∧ m ∈ nodes ∧
      m.tile = tileAt dir (lane dir n.tile) (pos dir n.tile - k) ∧ m.tile ∉ del ∧ m.toPos dir = true ∧
      UpstreamZ nodes del (n.tile, n.layer) (m.tile, m.layer) ∧
      (∀ j < k, ∃ v ∈ nodes, v.tile = tileAt dir (lane dir n.tile) (pos dir n.tile - j) ∧ v.tile ∈ del ∧ v.fromPos dir = true) ∧
      off fs (lane dir n.tile) (pos dir n.tile) + 1 = off fs (lane dir n.tile) (pos dir n.tile - k) + k := by
    intro d
    induction d with
    | zero =>
      intro k m hdk hk hm hmt hme hup hch hbb hoff
      by_cases hmd : m.tile ∈ del
      · exfalso
        obtain ⟨d1, d2, d3, d4, d5, d6⟩ := C.deleted hm hmd
        have hx := C.from_xor hm d2
        by_cases hl : m.fromLane dir = true
        · refine C.bend n hn m.tile ?_ hmd
          unfold Node.bendTile
          rw [if_pos (by simp [e2, e4, e6 ht, ht]), hbb]
          unfold bendBefore
          rw [← hme, if_pos (C.wireAt_of hm d1 d3), if_pos (by rw [C.fromLaneAt_eq hm d1]; exact hl)]
        · have hp : m.fromPos dir = true := by simpa [hx] using hl
          have := (C.fromPos_source hm d2 hp).1
          rw [hme, pos_mk] at this
          omega
      · have hmd' := hmd
        rw [hme] at hmd'
        rw [C.off_rem ha hmd'] at hoff
        have hz : pos dir n.tile - k = 0 := by omega
        exact ⟨k, m, hk, by omega, hm, by rw [hme, hz], hmd, hmt, hup _ (UpstreamZ.here _ _ hmd), hch, by rw [hz]; exact hoff⟩
    | succ d ih =>
      intro k m hdk hk hm hmt hme hup hch hbb hoff
      by_cases hmd : m.tile ∈ del
      · obtain ⟨d1, d2, d3, d4, d5, d6⟩ := C.deleted hm hmd
        have hx := C.from_xor hm d2
        by_cases hl : m.fromLane dir = true
        · exfalso
          refine C.bend n hn m.tile ?_ hmd
          unfold Node.bendTile
          rw [if_pos (by simp [e2, e4, e6 ht, ht]), hbb]
          unfold bendBefore
          rw [← hme, if_pos (C.wireAt_of hm d1 d3), if_pos (by rw [C.fromLaneAt_eq hm d1]; exact hl)]
        · have hp : m.fromPos dir = true := by simpa [hx] using hl
          obtain ⟨f1, f2, m', f3, f4, f5, f6⟩ := C.fromPos_source hm d2 hp
          have f7 : m'.tile = tileAt dir (lane dir n.tile) d := by
            rw [f4, f2, hme, lane_mk, pos_mk]; rfl
          refine ih (k + 1) m' (by omega) (by omega) f3 f5 f7 ?_ ?_ ?_ ?_
          · intro v hv
            rw [f4, f6] at hv
            exact hup v (UpstreamZ.back m v hm hmd hv)
          · intro j hj
            by_cases hjk : j = k
            · subst hjk
              exact ⟨m, hm, by rw [hme]; congr 1; omega, hmd, hp⟩
            · exact hch j (by omega)
          · rw [hbb]
            conv_lhs => unfold bendBefore
            rw [← hme, if_pos (C.wireAt_of hm d1 d3), if_neg (by rw [C.fromLaneAt_eq hm d1]; exact hl)]
          · rw [hme] at hmd
            rw [C.off_del ha hmd] at hoff
            omega
      · have hmd' := hmd
        rw [hme] at hmd'
        rw [C.off_rem ha hmd'] at hoff
        have hz : pos dir n.tile - k = d + 1 := by omega
        exact ⟨k, m, hk, by omega, hm, by rw [hme, hz], hmd, hmt, hup _ (UpstreamZ.here _ _ hmd), hch, by rw [hz]; exact hoff⟩
  obtain ⟨f1, f2, m, f3, f4, f5, f6⟩ := C.fromPos_source hn e2 (e6 ht)
  have e : pos dir n.tile - 1 + 1 = pos dir n.tile := by omega
  refine aux (pos dir n.tile - 1) 1 m e (by omega) f3 f5 (by rw [f4, f2]) ?_ ?_ (by rw [e]) (by rw [e])
  · intro v hv
    rw [f4, f6] at hv
    exact UpstreamZ.back n v hn hd hv
  · intro j hj
    have : j = 0 := by omega
    subst this
    exact ⟨n, hn, (mk_eta _ _).symm, hd, e6 ht⟩

theorem Ctx.off_add (C : Ctx dir w h nodes S del fs) {a : Nat} (ha : a < lanes dir w h + 1) (b k : Nat) :
    off fs a (b + k) ≤ off fs a b + k := by
  induction k with
  | zero => simp
  | succ k ih =>
    by_cases hd : tileAt dir a (b + k) ∈ del
    · have := C.off_del ha hd
      rw [← Nat.add_assoc]; omega
    · have := C.off_rem ha hd
      rw [← Nat.add_assoc]; omega

/-- If the offset grows as fast as possible, all tiles in between are deleted. -/
theorem Ctx.full (C : Ctx dir w h nodes S del fs) {a : Nat} (ha : a < lanes dir w h + 1) (b : Nat) : ∀ k,
    off fs a (b + k) = off fs a b + k → ∀ i < k, tileAt dir a (b + i) ∈ del := by
  intro k
  induction k with
  | zero => intro _ i hi; omega
  | succ k ih =>
    intro hk i hi
    have hle := C.off_add ha b k
    by_cases hd : tileAt dir a (b + k) ∈ del
    · have := C.off_del ha hd
      by_cases e : i = k
      · rw [e]; exact hd
      · exact ih (by rw [← Nat.add_assoc] at hk; omega) i (by omega)
    · have := C.off_rem ha hd
      rw [← Nat.add_assoc] at hk
      omega

/-- Next to the straight wire, the ground wire of the crossing runs down the next lane. -/
theorem Ctx.down (C : Ctx dir w h nodes S del fs) (L : Layered nodes) {g : Node} (hg : g ∈ nodes) (hgd : g.tile ∉ del)
    (hgl : g.toLane dir = true) {a b k : Nat} (hga : lane dir g.tile = a) (hgb : pos dir g.tile = b) (hk : 0 < k)
    (hoff : off fs (a + 1) (b + k) = off fs a b + k) :
    (∀ i < k, ∃ v ∈ nodes, v.tile = tileAt dir (a + 1) (b + i) ∧ v.tile ∈ del ∧ (i = 0 → v.fromLane dir = true) ∧
      (0 < i → v.fromPos dir = true)) ∧
    ∃ v ∈ nodes, v.tile = tileAt dir (a + 1) (b + k) ∧ v.fromPos dir = true := by
  obtain ⟨v0, hv0, ht0, hl0⟩ := L.next_lane hg hgl
  rw [hga, hgb] at ht0
  have hA : a + 1 < lanes dir w h + 1 := by
    have := (lane_le (dir := dir) (C.wf.inside v0 hv0)).1
    rwa [ht0, lane_mk] at this
  have hgt : g.tile = tileAt dir a b := by rw [← hga, ← hgb, mk_eta]
  have hd0 : tileAt dir (a + 1) b ∈ del := by
    by_contra hd
    have h1 := C.cross_rem hA (by rw [← hgt]; exact hgd) hd
    have h2 := C.off_rem hA hd
    have h3 := C.off_add hA (b + 1) (k - 1)
    rw [show b + 1 + (k - 1) = b + k by omega] at h3
    omega
  have hd0' : v0.tile ∈ del := by rw [ht0]; exact hd0
  obtain ⟨d1, d2, d3, d4, d5, d6⟩ := C.deleted hv0 hd0'
  have hp0 : v0.toPos dir = true := by
    by_contra hh
    have h1 : v0.toLane dir = true := by rw [d5]; simpa using hh
    have h2 := d6 h1
    have h3 := C.from_xor hv0 d2
    rw [h2, hl0] at h3
    simp at h3
  have hin := C.cross_in hv0 hd0' hp0 hl0 (by rw [ht0, lane_mk]; exact hA)
    (by rw [ht0, lane_mk, pos_mk, Nat.add_sub_cancel, ← hgt]; exact hgd)
  rw [ht0, lane_mk, pos_mk, Nat.add_sub_cancel] at hin
  have hall := C.full hA b k (by omega)
  have key : ∀ i, i < k → ∃ v ∈ nodes, v.tile = tileAt dir (a + 1) (b + i) ∧ v.tile ∈ del ∧ (i = 0 → v.fromLane dir = true) ∧
      (0 < i → v.fromPos dir = true) ∧ v.toPos dir = true ∧
      bendBefore dir nodes (a + 1) (b + i + 1) = some (tileAt dir (a + 1) b) := by
    intro i
    induction i with
    | zero =>
      intro _
      refine ⟨v0, hv0, ht0, hd0', fun _ => hl0, fun hh => by omega, hp0, ?_⟩
      unfold bendBefore
      rw [Nat.add_zero, ← ht0, if_pos (C.wireAt_of hv0 d1 d3), if_pos (by rw [C.fromLaneAt_eq hv0 d1]; exact hl0)]
    | succ i ih =>
      intro hi
      obtain ⟨v, i1, i2, i3, i4, i5, i6, i7⟩ := ih (by omega)
      obtain ⟨v', j1, j2, j3⟩ := L.next_pos i1 i6
      rw [i2, lane_mk, pos_mk] at j2
      have hd' : v'.tile ∈ del := by rw [j2]; exact hall (i + 1) hi
      obtain ⟨c1, c2, c3, c4, c5, c6⟩ := C.deleted j1 hd'
      have hx := C.from_xor j1 c2
      rw [j3] at hx
      refine ⟨v', j1, j2, hd', fun hh => by omega, fun _ => j3, ?_, ?_⟩
      · by_contra hh
        have h1 : v'.toLane dir = true := by rw [c5]; simpa using hh
        refine C.bend v' j1 (tileAt dir (a + 1) b) ?_ hd0
        unfold Node.bendTile
        rw [if_pos (by simp [c2, c4, j3, h1]), j2, lane_mk, pos_mk]
        exact i7
      · rw [← Nat.add_assoc]
        conv_lhs => unfold bendBefore
        rw [← j2, if_pos (C.wireAt_of j1 c1 c3), if_neg (by rw [C.fromLaneAt_eq j1 c1, hx]; simp)]
        exact i7
  refine ⟨fun i hi => ?_, ?_⟩
  · obtain ⟨v, i1, i2, i3, i4, i5, -⟩ := key i hi
    exact ⟨v, i1, i2, i3, i4, i5⟩
  · obtain ⟨v, i1, i2, i3, i4, i5, i6, -⟩ := key (k - 1) (by omega)
    obtain ⟨v', j1, j2, j3⟩ := L.next_pos i1 i6
    rw [i2, lane_mk, pos_mk, show b + (k - 1) + 1 = b + k by omega] at j2
    exact ⟨v', j1, j2, j3⟩

/-- The signal of a ground tile comes from the previous position of the lane. -/
def posAt (dir : Dir) (nodes : List Node) (t : Tile) : Bool := match dir with | .horizontal => northAt nodes t | .vertical => westAt nodes t
/-- The signal of a ground tile comes from the previous lane. -/
def laneAt (dir : Dir) (nodes : List Node) (t : Tile) : Bool := match dir with | .horizontal => westAt nodes t | .vertical => northAt nodes t

theorem posAt_of {n : Node} (hn : n ∈ nodes) (h0 : n.layer = 0) (hp : n.fromPos dir = true) : posAt dir nodes n.tile = true := by
  cases dir <;> simp only [posAt, northAt, westAt] <;> rw [List.any_eq_true] <;> simp only [Node.fromPos] at hp <;>
    exact ⟨n, hn, by simp [h0, hp]⟩

theorem laneAt_of {n : Node} (hn : n ∈ nodes) (h0 : n.layer = 0) (hp : n.fromLane dir = true) : laneAt dir nodes n.tile = true := by
  cases dir <;> simp only [laneAt, northAt, westAt] <;> rw [List.any_eq_true] <;> simp only [Node.fromLane] at hp <;>
    exact ⟨n, hn, by simp [h0, hp]⟩

/-- The loop of the special case finds two wires that run side by side from a crossing. -/
theorem crossLoop_true {c : Tile} {k : Nat} (hk : 0 < k) (hdir : dir = .horizontal ∨ k ≤ 2) (h1 : 0 < lane dir c)
    (h2 : k ≤ pos dir c) (w1 : ∀ j ≤ k, wireAt nodes (tileAt dir (lane dir c - 1) (pos dir c - j)) = true)
    (w2 : ∀ j, 0 < j → j ≤ k → wireAt nodes (tileAt dir (lane dir c) (pos dir c - j)) = true)
    (p1 : ∀ j < k, posAt dir nodes (tileAt dir (lane dir c - 1) (pos dir c - j)) = true)
    (p2 : ∀ j, 0 < j → j < k → posAt dir nodes (tileAt dir (lane dir c) (pos dir c - j)) = true)
    (l2 : laneAt dir nodes (tileAt dir (lane dir c) (pos dir c - k)) = true) :
    ∀ fuel i, 0 < i → i ≤ k → i < k ∨ k = 1 → k ≤ fuel + i → 0 < fuel → crossLoop dir nodes c fuel i = true := by
  obtain ⟨x, y⟩ := c
  cases dir
  · simp only [lane, pos, tileAt, posAt, laneAt] at *
    have ex : x - 1 + 1 = x := by omega
    intro fuel
    induction fuel with
    | zero => intro i _ _ _ _ hh; omega
    | succ fuel ih =>
      intro i hi hik hlt hf _
      unfold crossLoop
      by_cases hc : isCrossing nodes (x, y) 1 1 = true
      · rw [if_pos hc]
      · rw [if_neg hc]
        rcases hlt with hlt | hlt
        · dsimp only
          have a1 : singleWire nodes (x, y) 1 i = true := by
            unfold singleWire; simp only [w1 i hik, Bool.and_true, Bool.and_eq_true, decide_eq_true_eq]; omega
          have a2 : singleWire nodes (x, y) 0 (i + 1) = true := by
            unfold singleWire
            simp only [Nat.sub_zero, w2 (i + 1) (by omega) (by omega), Bool.and_true, Bool.and_eq_true, decide_eq_true_eq]; omega
          have a3 := p1 (i - 1) (by omega)
          rw [show y - (i - 1) = y - i + 1 by omega] at a3
          have a4 := p2 i hi hlt
          rw [if_neg (by simp [a1, a2, a3, a4])]
          by_cases he : i + 1 = k
          · rw [if_pos]
            unfold isCrossing
            dsimp only
            rw [ex, he, l2, show y - k + 1 = y - i by omega, p1 i hlt]
            rfl
          · split_ifs
            · rfl
            · exact ih (i + 1) (by omega) (by omega) (Or.inl (by omega)) (by omega) (by omega)
        · exfalso
          subst hlt
          apply hc
          unfold isCrossing
          dsimp only
          have := p1 0 (by omega)
          rw [ex, l2, show y - 1 + 1 = y - 0 by omega, this]
          rfl
  · simp only [lane, pos, tileAt, posAt, laneAt] at *
    have hk2 : k ≤ 2 := by rcases hdir with hh | hh; · cases hh
                           exact hh
    have ey : y - 1 + 1 = y := by omega
    intro fuel i hi hik hlt hf hf0
    obtain ⟨fuel, rfl⟩ : ∃ f, fuel = f + 1 := ⟨fuel - 1, by omega⟩
    unfold crossLoop
    by_cases hc : isCrossing nodes (x, y) 1 1 = true
    · rw [if_pos hc]
    · rw [if_neg hc]
      rcases hlt with hlt | hlt
      · dsimp only
        have hi1 : i = 1 := by omega
        have hk1 : k = 2 := by omega
        subst hi1; subst hk1
        have a1 : singleWire nodes (x, y) 1 1 = true := by
          unfold singleWire; simp only [w1 1 (by omega), Bool.and_true, Bool.and_eq_true, decide_eq_true_eq]; omega
        have a2 : singleWire nodes (x, y) (1 + 1) 0 = true := by
          unfold singleWire
          simp only [Nat.sub_zero, w2 2 (by omega) (by omega), Nat.reduceAdd, Bool.and_true, Bool.and_eq_true, decide_eq_true_eq]; omega
        have a3 := p2 1 (by omega) (by omega)
        have a4 := p1 0 (by omega)
        rw [show x - 0 = x - 1 + 1 by omega] at a4
        rw [if_neg (by simp [a1, a2, a3, a4]), if_pos]
        unfold isCrossing
        dsimp only
        rw [ey, l2, show x - (1 + 1) + 1 = x - 1 by omega, p1 1 (by omega)]
        rfl
      · exfalso
        subst hlt
        apply hc
        unfold isCrossing
        dsimp only
        have := p1 0 (by omega)
        rw [ey, l2, show x - 1 + 1 = x - 0 by omega, this]
        rfl

/-- The signal of a deleted wire that turns into the next lane does not begin where a wire leads to the next lane as well. -/
theorem Ctx.no_fork (C : Ctx dir w h nodes S del fs) (L : Layered nodes)
    (hx : ∀ n ∈ nodes, ∀ b, n.crossTile dir nodes = some b → b ∉ del) (hdir : dir = .horizontal ∨ fs.length ≤ 2) {n c : Node}
    (hn : n ∈ nodes) (hd : n.tile ∈ del) (ht : n.toLane dir = true) (hc : c ∈ nodes)
    (hct : c.tile = tileAt dir (lane dir n.tile + 1) (pos dir n.tile)) (hcl : c.fromLane dir = true)
    (hoff : off fs (lane dir n.tile + 1) (pos dir n.tile) = off fs (lane dir n.tile) (pos dir n.tile) + 1) :
    ∃ (k : Nat) (m : Node), 0 < k ∧ k ≤ pos dir n.tile ∧ m ∈ nodes ∧
      m.tile = tileAt dir (lane dir n.tile) (pos dir n.tile - k) ∧ m.toPos dir = true ∧
      UpstreamZ nodes del (n.tile, 0) (m.tile, m.layer) ∧
      (∀ j < k, ∃ v ∈ nodes, v.tile = tileAt dir (lane dir n.tile) (pos dir n.tile - j) ∧ v.tile ∈ del ∧ v.fromPos dir = true) ∧
      ∀ g ∈ nodes, g.tile = m.tile → g.layer = 0 → g.isWire = true → g.toLane dir = false := by
  obtain ⟨e1, e2, e3, e4, e5, e6⟩ := C.deleted hn hd
  obtain ⟨k, m, k1, k2, m1, m2, m3, m4, m5, m6, m7⟩ := C.chain hn hd ht
  rw [e1] at m5
  refine ⟨k, m, k1, k2, m1, m2, m4, m5, m6, ?_⟩
  intro g g1 g2 g3 g4
  by_contra g5
  rw [Bool.not_eq_false] at g5
  have hgl : lane dir g.tile = lane dir n.tile := by rw [g2, m2, lane_mk]
  have hgp : pos dir g.tile = pos dir n.tile - k := by rw [g2, m2, pos_mk]
  obtain ⟨dn, v, v1, v2, v3⟩ := C.down L g1 (by rw [g2]; exact m3) g5 hgl hgp k1
    (by rw [show pos dir n.tile - k + k = pos dir n.tile by omega]; omega)
  rw [show pos dir n.tile - k + k = pos dir n.tile by omega, ← hct] at v2
  have lc : lane dir c.tile = lane dir n.tile + 1 := by rw [hct, lane_mk]
  have pc : pos dir c.tile = pos dir n.tile := by rw [hct, pos_mk]
  by_cases hcd : c.tile ∈ del
  · obtain ⟨c1, c2, -⟩ := C.deleted hc hcd
    obtain ⟨c3, -⟩ := C.deleted v1 (by rw [v2]; exact hcd)
    have := C.wf.unique v v1 c hc v2 (by rw [c3, c1])
    subst this
    have hh := C.from_xor v1 c2
    rw [v3, hcl] at hh
    simp at hh
  · -- the node for which the special case applies
    have hs : ∃ s ∈ nodes, s.tile = c.tile ∧ (s.layer = 1 ∨ s.incoming = 2) := by
      by_cases hvc : v = c
      · subst hvc
        refine ⟨v, v1, rfl, Or.inr ?_⟩
        cases dir
        · exact L.two v v1 hcl v3
        · exact L.two v v1 v3 hcl
      · by_cases hv0 : v.layer = 0
        · have hc0 : c.layer ≠ 0 := fun hh => hvc (C.wf.unique v v1 c hc v2 (by rw [hv0, hh]))
          exact ⟨c, hc, rfl, Or.inl (L.upper c hc hc0).1⟩
        · exact ⟨v, v1, v2, Or.inl (L.upper v v1 hv0).1⟩
    obtain ⟨s, s1, s2, s3⟩ := hs
    have wire1 : ∀ j ≤ k, wireAt nodes (tileAt dir (lane dir n.tile) (pos dir n.tile - j)) = true := by
      intro j hj
      by_cases hjk : j = k
      · rw [hjk, ← m2, ← g2]
        exact C.wireAt_of g1 g3 g4
      · obtain ⟨q, q1, q2, q3, -⟩ := m6 j (by omega)
        rw [← q2]
        obtain ⟨r1, -, r3, -⟩ := C.deleted q1 q3
        exact C.wireAt_of q1 r1 r3
    have below : ∀ j, 0 < j → j ≤ k → ∃ v ∈ nodes, v.tile = tileAt dir (lane dir n.tile + 1) (pos dir n.tile - j) ∧ v.tile ∈ del ∧
        (j = k → v.fromLane dir = true) ∧ (j < k → v.fromPos dir = true) := by
      intro j h0 hj
      obtain ⟨q, q1, q2, q3, q4, q5⟩ := dn (k - j) (by omega)
      rw [show pos dir n.tile - k + (k - j) = pos dir n.tile - j by omega] at q2
      exact ⟨q, q1, q2, q3, fun hh => q4 (by omega), fun hh => q5 (by omega)⟩
    have wire2 : ∀ j, 0 < j → j ≤ k → wireAt nodes (tileAt dir (lane dir n.tile + 1) (pos dir n.tile - j)) = true := by
      intro j h0 hj
      obtain ⟨q, q1, q2, q3, -⟩ := below j h0 hj
      rw [← q2]
      obtain ⟨r1, -, r3, -⟩ := C.deleted q1 q3
      exact C.wireAt_of q1 r1 r3
    have hk2 : dir = .horizontal ∨ k ≤ 2 := by
      rcases hdir with hh | hh
      · exact Or.inl hh
      · right
        have : off fs (lane dir n.tile) (pos dir n.tile) + 1 ≤ fs.length := by
          rw [← hoff]; exact List.countP_le_length
        omega
    have hloop := crossLoop_true (nodes := nodes) (c := c.tile) (dir := dir) (k := k) k1 hk2 (by omega) (by omega)
      (by intro j hj; rw [lc, pc, Nat.add_sub_cancel]; exact wire1 j hj)
      (by intro j h0 hj; rw [lc, pc]; exact wire2 j h0 hj)
      (by
        intro j hj
        obtain ⟨q, q1, q2, q3, q4⟩ := m6 j hj
        rw [lc, pc, Nat.add_sub_cancel, ← q2]
        exact posAt_of q1 (C.deleted q1 q3).1 q4)
      (by
        intro j h0 hj
        obtain ⟨q, q1, q2, q3, -, q5⟩ := below j h0 (by omega)
        rw [lc, pc, ← q2]
        exact posAt_of q1 (C.deleted q1 q3).1 (q5 hj))
      (by
        obtain ⟨q, q1, q2, q3, q4, -⟩ := below k k1 (le_refl _)
        rw [lc, pc, ← q2]
        exact laneAt_of q1 (C.deleted q1 q3).1 (q4 rfl))
      (c.tile.1 + c.tile.2 + 1) 1 (by omega) (by omega) (by omega)
      (by
        have : pos dir c.tile ≤ c.tile.1 + c.tile.2 := by cases dir <;> simp only [pos] <;> omega
        omega) (by omega)
    refine hx s s1 n.tile ?_ hd
    have t1 := wire1 0 (by omega)
    have t2 := wire2 1 (by omega) (by omega)
    unfold Node.crossTile
    rw [s2]
    have hcond : (s.layer == 1 || s.incoming == 2) = true := by
      rcases s3 with hh | hh <;> simp [hh]
    have n1 : n.tile = tileAt dir (lane dir c.tile - 1) (pos dir c.tile) := by
      rw [lc, pc, Nat.add_sub_cancel, mk_eta]
    rw [← lc, ← pc] at t2
    rw [← pc, show lane dir n.tile = lane dir c.tile - 1 by omega] at t1
    have b1 : 0 < lane dir c.tile := by omega
    have b2 : 0 < pos dir c.tile := by omega
    generalize c.tile = ct at *
    obtain ⟨x, y⟩ := ct
    cases dir <;> simp only [lane, pos, tileAt, Nat.sub_zero] at t1 t2 b1 b2 n1 <;>
      · rw [if_pos, n1]
        rw [hloop, hcond]
        unfold singleWire
        simp [t1, t2]
        omega

/-- A deleted wire that turns into the next lane carries a signal from the ground layer. -/
theorem Ctx.ground (C : Ctx dir w h nodes S del fs) (L : Layered nodes)
    (hx : ∀ n ∈ nodes, ∀ b, n.crossTile dir nodes = some b → b ∉ del) (hdir : dir = .horizontal ∨ fs.length ≤ 2) {n c : Node}
    (hn : n ∈ nodes) (hd : n.tile ∈ del) (ht : n.toLane dir = true) (hc : c ∈ nodes)
    (hct : c.tile = tileAt dir (lane dir n.tile + 1) (pos dir n.tile)) (hcl : c.fromLane dir = true)
    (hoff : off fs (lane dir n.tile + 1) (pos dir n.tile) = off fs (lane dir n.tile) (pos dir n.tile) + 1) :
    ∃ u, UpstreamZ nodes del (n.tile, 0) (u, 0) := by
  obtain ⟨k, m, k1, k2, m1, m2, m4, m5, m6, m7⟩ := C.no_fork L hx hdir hn hd ht hc hct hcl hoff
  by_cases hm0 : m.layer = 0
  · rw [hm0] at m5
    exact ⟨_, m5⟩
  · obtain ⟨g, g1, g2, g3, g4, g5⟩ := L.under m1 hm0 m4
    rw [m7 g g1 g2 g3 g4] at g5
    cases g5

theorem Ctx.incomingLayer_eq (C : Ctx dir w h nodes S del fs) {n : Node} (hn : n ∈ nodes) (h1 : n.layer = 0) :
    incomingLayer nodes n.tile = n.sourceLayer := by
  unfold incomingLayer
  cases hf : nodes.find? (fun m => m.tile == n.tile && m.layer == 0) with
  | none =>
    have := List.find?_eq_none.1 hf n hn
    simp [h1] at this
  | some m =>
    have hm := List.mem_of_find?_eq_some hf
    have hp := List.find?_some hf
    simp only [Bool.and_eq_true, beq_iff_eq] at hp
    have := C.wf.unique m hm n hn hp.1 (by rw [hp.2, h1])
    subst this
    rfl

/-- The end of the walk at a wire that comes from the previous lane. -/
theorem Ctx.layer_turn (C : Ctx dir w h nodes S del fs) (L : Layered nodes)
    (hx : ∀ n ∈ nodes, ∀ b, n.crossTile dir nodes = some b → b ∉ del) (hdir : dir = .horizontal ∨ fs.length ≤ 2) {n : Node}
    (hn : n ∈ nodes) (hd : n.tile ∈ del) (ht : n.toPos dir = true) (hl : n.fromLane dir = true) :
    ∃ u, UpstreamZ nodes del (n.tile, n.layer) (u, n.sourceLayer) := by
  have d2 := (C.deleted hn hd).2.1
  obtain ⟨s1, s2, m, s3, s4, s5, s6⟩ := C.fromLane_source hn d2 hl
  have ha := (lane_le (dir := dir) (C.wf.inside n hn)).1
  have l1 : lane dir m.tile + 1 = lane dir n.tile := by rw [s4, s2, lane_mk]; omega
  have p1 : pos dir m.tile = pos dir n.tile := by rw [s4, s2, pos_mk]
  by_cases hmd : m.tile ∈ del
  · have hb := C.cross_both hn hd ht hl ha s3 hmd s4 s5 s6
    rw [← l1, Nat.add_sub_cancel, ← p1] at hb
    obtain ⟨u, hu⟩ := C.ground L hx hdir s3 hmd s5 hn (by rw [l1, p1, mk_eta]) hl hb
    have hz : n.sourceLayer = 0 := by rw [← s6]; exact (C.deleted s3 hmd).1
    rw [hz]
    exact ⟨u, UpstreamZ.back n _ hn hd (by rw [hz, ← s4]; exact hu)⟩
  · exact ⟨n.source, UpstreamZ.back n _ hn hd (UpstreamZ.here _ _ (by rw [← s4]; exact hmd))⟩

/-- The walk over deleted wires ends in the right layer. -/
theorem Ctx.walk_layer (C : Ctx dir w h nodes S del fs) (L : Layered nodes)
    (hx : ∀ n ∈ nodes, ∀ b, n.crossTile dir nodes = some b → b ∉ del) (hdir : dir = .horizontal ∨ fs.length ≤ 2) :
    ∀ (b a : Nat) (n : Node) (o : Nat), n ∈ nodes → n.tile ∈ del → n.toPos dir = true → n.tile = tileAt dir a b →
    off fs a b < o → ∃ u, UpstreamZ nodes del (n.tile, n.layer) (u, walkLayer S nodes del o n.tile) := by
  intro b
  induction b with
  | zero =>
    intro a n o hn hd ht hne ho
    obtain ⟨o, rfl⟩ : ∃ o', o = o' + 1 := ⟨o - 1, by omega⟩
    obtain ⟨d1, d2, d3, d4, d5, d6⟩ := C.deleted hn hd
    have eb : pos dir n.tile = 0 := by rw [hne, pos_mk]
    have hxo := C.from_xor hn d2
    have hl : n.fromLane dir = true := by
      by_contra hl
      have hp : n.fromPos dir = true := by simpa [hxo] using hl
      have := (C.fromPos_source hn d2 hp).1
      omega
    unfold walkLayer
    rw [C.incomingOf_eq hn d1 d2]
    dsimp only
    rw [if_neg (by rw [C.sdir]; omega), C.incomingLayer_eq hn d1]
    exact C.layer_turn L hx hdir hn hd ht hl
  | succ b ih =>
    intro a n o hn hd ht hne ho
    obtain ⟨o, rfl⟩ : ∃ o', o = o' + 1 := ⟨o - 1, by omega⟩
    obtain ⟨d1, d2, d3, d4, d5, d6⟩ := C.deleted hn hd
    have hin := lane_le (dir := dir) (C.wf.inside n hn)
    have ea : lane dir n.tile = a := by rw [hne, lane_mk]
    have eb : pos dir n.tile = b + 1 := by rw [hne, pos_mk]
    have hxo := C.from_xor hn d2
    unfold walkLayer
    rw [C.incomingOf_eq hn d1 d2]
    dsimp only
    by_cases hl : n.fromLane dir = true
    · rw [if_neg]
      · rw [C.incomingLayer_eq hn d1]
        exact C.layer_turn L hx hdir hn hd ht hl
      · rintro ⟨-, -, hh⟩
        apply hh
        rw [C.sdir, (C.fromLane_source hn d2 hl).2.1, pos_mk]
    · have hp : n.fromPos dir = true := by simpa [hxo] using hl
      obtain ⟨f1, f2, m, f3, f4, f5, f6⟩ := C.fromPos_source hn d2 hp
      have es : n.source = tileAt dir a b := by rw [f2, ea, eb]; rfl
      have ep : tileAt S.dir (lane S.dir n.tile) (pos S.dir n.tile - 1) = n.source := by rw [C.sdir, f2]
      rw [ep]
      have hmin := C.wf.inside m f3
      rw [f4] at hmin
      have hnin := C.wf.inside n hn
      have m1 : offsetMatrix S del n.tile.2 n.tile.1 = off fs a (b + 1) := by
        rw [C.matrix (by omega) hin.1, ea, eb]
      have m2 : offsetMatrix S del n.source.2 n.source.1 = off fs a b := by
        rw [C.matrix (by omega) (by rw [es, lane_mk]; omega), es, lane_mk, pos_mk]
      rw [m1, m2]
      by_cases hmd : m.tile ∈ del
      · have hs : tileAt dir a b ∈ del := by rw [← es, ← f4]; exact hmd
        have ho' := C.off_del (by omega) hs
        rw [if_pos ⟨by rw [C.sdir]; omega, by omega, by rw [C.sdir, es, pos_mk, eb]; omega⟩, ← f4]
        obtain ⟨u, hu⟩ := ih a m o f3 hmd f5 (by rw [f4, es]) (by omega)
        exact ⟨u, UpstreamZ.back n _ hn hd (by rw [← f4, ← f6]; exact hu)⟩
      · have hs : tileAt dir a b ∉ del := by rw [← es, ← f4]; exact hmd
        have ho' := C.off_rem (by omega) hs
        rw [if_neg (by omega), C.incomingLayer_eq hn d1]
        exact ⟨n.source, UpstreamZ.back n _ hn hd (UpstreamZ.here _ _ (by rw [es]; exact hs))⟩

/-- The tile at the end of a signal path is unique. -/
theorem Upstream.inv {t u : Tile} (hu : Upstream nodes del t u) :
    (t ∉ del ∧ u = t) ∨ ∃ n ∈ nodes, n.tile = t ∧ t ∈ del ∧ Upstream nodes del n.source u := by
  cases hu with
  | here _ hd => exact Or.inl ⟨hd, rfl⟩
  | back n _ hn hd hu => exact Or.inr ⟨n, hn, rfl, hd, hu⟩

theorem Ctx.upstream_unique (C : Ctx dir w h nodes S del fs) {t u u' : Tile} (hu : Upstream nodes del t u)
    (hu' : Upstream nodes del t u') : u = u' := by
  induction hu with
  | here t hd =>
    rcases hu'.inv with ⟨-, hh⟩ | ⟨n, -, -, hh, -⟩
    · exact hh.symm
    · exact absurd hh hd
  | back n u hn hd _ ih =>
    rcases hu'.inv with ⟨hh, -⟩ | ⟨m, m1, m2, m3, m4⟩
    · exact absurd hd hh
    · have := C.wf.unique m m1 n hn m2 (by rw [(C.deleted hn hd).1, (C.deleted m1 (by rw [m2]; exact hd)).1])
      subst this
      exact ih m4

theorem UpstreamZ.forget {p p' : Tile × Nat} (hu : UpstreamZ nodes del p p') : Upstream nodes del p.1 p'.1 := by
  induction hu with
  | here t z hd => exact Upstream.here t hd
  | back n u hn hd _ ih => exact Upstream.back n u.1 hn hd ih

theorem UpstreamZ.inv {p p' : Tile × Nat} (hu : UpstreamZ nodes del p p') :
    (p.1 ∉ del ∧ p' = p) ∨ ∃ n ∈ nodes, n.tile = p.1 ∧ n.layer = p.2 ∧ p.1 ∈ del ∧ UpstreamZ nodes del (n.source, n.sourceLayer) p' := by
  cases hu with
  | here t z hd => exact Or.inl ⟨hd, rfl⟩
  | back n _ hn hd hu => exact Or.inr ⟨n, hn, rfl, rfl, hd, hu⟩

theorem Ctx.back_of (C : Ctx dir w h nodes S del fs) {n : Node} (hn : n ∈ nodes) (hd : n.tile ∈ del) {p : Tile × Nat}
    (hu : UpstreamZ nodes del (n.tile, n.layer) p) : UpstreamZ nodes del (n.source, n.sourceLayer) p := by
  rcases hu.inv with ⟨hh, -⟩ | ⟨m, m1, m2, m3, -, m5⟩
  · exact absurd hd hh
  · have := C.wf.unique m m1 n hn m2 m3
    subst this
    exact m5

theorem Ctx.upstreamZ_unique (C : Ctx dir w h nodes S del fs) {p u u' : Tile × Nat} (hu : UpstreamZ nodes del p u)
    (hu' : UpstreamZ nodes del p u') : u = u' := by
  induction hu with
  | here t z hd =>
    rcases hu'.inv with ⟨-, hh⟩ | ⟨n, -, -, -, hh, -⟩
    · exact hh.symm
    · exact absurd hh hd
  | back n u hn hd _ ih => exact ih (C.back_of hn hd hu')

/-- Signal paths do not run backwards. -/
theorem Ctx.back_pos (C : Ctx dir w h nodes S del fs) {p u : Tile × Nat} (hu : UpstreamZ nodes del p u) :
    pos dir u.1 ≤ pos dir p.1 := by
  induction hu with
  | here t z hd => exact le_refl _
  | back n u hn hd _ ih =>
    have d2 := (C.deleted hn hd).2.1
    dsimp only at ih ⊢
    by_cases hl : n.fromLane dir = true
    · rw [(C.fromLane_source hn d2 hl).2.1, pos_mk] at ih
      omega
    · have hp : n.fromPos dir = true := by simpa [C.from_xor hn d2] using hl
      rw [(C.fromPos_source hn d2 hp).2.1, pos_mk] at ih
      omega

/-- A signal path from a deleted wire back through its lane stays in the lane or comes from a node of the previous lane. -/
theorem Ctx.back_lane (C : Ctx dir w h nodes S del fs) {p : Tile × Nat} : ∀ (b : Nat) (n : Node), n ∈ nodes → n.tile ∈ del →
    pos dir n.tile = b → UpstreamZ nodes del (n.tile, n.layer) p → lane dir p.1 = lane dir n.tile ∨
    ∃ q ∈ nodes, q.toLane dir = true ∧ lane dir q.tile + 1 = lane dir n.tile ∧ pos dir q.tile ≤ b ∧
      UpstreamZ nodes del (q.tile, q.layer) p := by
  intro b
  induction b with
  | zero =>
    intro n hn hd hb hu
    have d2 := (C.deleted hn hd).2.1
    have hl : n.fromLane dir = true := by
      by_contra hl
      have hp : n.fromPos dir = true := by simpa [C.from_xor hn d2] using hl
      have := (C.fromPos_source hn d2 hp).1
      omega
    obtain ⟨s1, s2, m, s3, s4, s5, s6⟩ := C.fromLane_source hn d2 hl
    right
    refine ⟨m, s3, s5, ?_, ?_, ?_⟩
    · rw [s4, s2, lane_mk]; omega
    · rw [s4, s2, pos_mk]; omega
    · rw [s4, s6]; exact C.back_of hn hd hu
  | succ b ih =>
    intro n hn hd hb hu
    have d2 := (C.deleted hn hd).2.1
    by_cases hl : n.fromLane dir = true
    · obtain ⟨s1, s2, m, s3, s4, s5, s6⟩ := C.fromLane_source hn d2 hl
      right
      refine ⟨m, s3, s5, ?_, ?_, ?_⟩
      · rw [s4, s2, lane_mk]; omega
      · rw [s4, s2, pos_mk]; omega
      · rw [s4, s6]; exact C.back_of hn hd hu
    · have hp : n.fromPos dir = true := by simpa [C.from_xor hn d2] using hl
      obtain ⟨f1, f2, m, f3, f4, f5, f6⟩ := C.fromPos_source hn d2 hp
      have hm := C.back_of hn hd hu
      rw [← f4, ← f6] at hm
      have lm : lane dir m.tile = lane dir n.tile := by rw [f4, f2, lane_mk]
      by_cases hmd : m.tile ∈ del
      · rcases ih m f3 hmd (by rw [f4, f2, pos_mk]; omega) hm with hh | ⟨q, q1, q2, q3, q4, q5⟩
        · exact Or.inl (by omega)
        · exact Or.inr ⟨q, q1, q2, by omega, by omega, q5⟩
      · rcases hm.inv with ⟨-, hh⟩ | ⟨-, -, -, -, hh, -⟩
        · left; rw [hh]; exact lm
        · exact absurd hh hmd

/-- Signals that reach a tile from two sides begin at different nodes. -/
theorem Ctx.apart (C : Ctx dir w h nodes S del fs) (L : Layered nodes)
    (hx : ∀ n ∈ nodes, ∀ b, n.crossTile dir nodes = some b → b ∉ del) (hdir : dir = .horizontal ∨ fs.length ≤ 2)
    (hfork : ∀ n ∈ nodes, n.toLane dir = true → n.toPos dir = true → n.isWire = true) {n m m' : Node} (hn : n ∈ nodes)
    (hr : n.tile ∉ del) (hl : n.fromLane dir = true) (hm : m ∈ nodes) (hm' : m' ∈ nodes) (ht : m.toLane dir = true)
    (hmt : n.tile = tileAt dir (lane dir m.tile + 1) (pos dir m.tile))
    (hmt' : n.tile = tileAt dir (lane dir m'.tile) (pos dir m'.tile + 1)) {p : Tile × Nat}
    (hu : UpstreamZ nodes del (m.tile, m.layer) p) (hu' : UpstreamZ nodes del (m'.tile, m'.layer) p) : False := by
  have l1 : lane dir n.tile = lane dir m.tile + 1 := by rw [hmt, lane_mk]
  have l2 : lane dir n.tile = lane dir m'.tile := by rw [hmt', lane_mk]
  have p1 : pos dir n.tile = pos dir m.tile := by rw [hmt, pos_mk]
  have p2 : pos dir n.tile = pos dir m'.tile + 1 := by rw [hmt', pos_mk]
  have hin := (lane_le (dir := dir) (C.wf.inside n hn)).1
  by_cases hmd : m.tile ∈ del
  · have ho := C.cross_out hm hmd ht (by omega) (by rw [← hmt]; exact hr)
    have hz := (C.deleted hm hmd).1
    obtain ⟨k, s, k1, k2, s1, s2, s3, s4, s5, s6⟩ := C.no_fork L hx hdir hm hmd ht hn hmt hl ho
    rw [hz] at hu
    have hup : p.1 = s.tile := C.upstream_unique hu.forget s4.forget
    have hps : lane dir p.1 = lane dir m.tile := by rw [hup, s2, lane_mk]
    have hpp : pos dir p.1 = pos dir m.tile - k := by rw [hup, s2, pos_mk]
    -- a node of the previous lane on the other path
    have hq : ∃ q ∈ nodes, q.toLane dir = true ∧ lane dir q.tile + 1 = lane dir n.tile ∧ pos dir q.tile < pos dir m.tile ∧
        UpstreamZ nodes del (q.tile, q.layer) p := by
      by_cases hmd' : m'.tile ∈ del
      · rcases C.back_lane _ m' hm' hmd' rfl hu' with hh | ⟨q, q1, q2, q3, q4, q5⟩
        · omega
        · exact ⟨q, q1, q2, by omega, by omega, q5⟩
      · rcases hu'.inv with ⟨-, hh⟩ | ⟨-, -, -, -, hh, -⟩
        · rw [hh] at hps; dsimp only at hps; omega
        · exact absurd hh hmd'
    obtain ⟨q, q1, q2, q3, q4, q5⟩ := hq
    by_cases hqd : q.tile ∈ del
    · -- the other path runs through the same straight wire
      obtain ⟨kq, v, c1, c2, -, c4, -, -, c7, -⟩ := C.chain q1 hqd q2
      have he : p.1 = v.tile := C.upstream_unique q5.forget c7.forget
      have hpv : pos dir p.1 = pos dir q.tile - kq := by rw [he, c4, pos_mk]
      obtain ⟨x, x1, x2, x3, x4⟩ := s5 (pos dir m.tile - pos dir q.tile - 1) (by omega)
      obtain ⟨f1, f2, y, f3, f4, f5, f6⟩ := C.fromPos_source x1 (C.deleted x1 x3).2.1 x4
      have hy : y.tile = q.tile := by
        have hy1 : y.tile = tileAt dir (lane dir m.tile) (pos dir q.tile) := by
          rw [f4, f2, x2, lane_mk, pos_mk]
          congr 1
          omega
        rw [hy1, show lane dir m.tile = lane dir q.tile by omega, mk_eta]
      have := C.wf.unique y f3 q q1 hy (by rw [(C.deleted q1 hqd).1, (C.deleted f3 (by rw [hy]; exact hqd)).1])
      subst this
      have h5 := (C.deleted q1 hqd).2.2.2.2.1
      rw [q2, f5] at h5
      simp at h5
    · rcases q5.inv with ⟨-, hh⟩ | ⟨-, -, -, -, hh, -⟩
      · have hsz : UpstreamZ nodes del (m.tile, 0) (s.tile, s.layer) := s4
        have h0 : s.layer = 0 := by
          by_contra hm0
          obtain ⟨g, g1, g2, g3, g4, g5⟩ := L.under s1 hm0 s3
          rw [s6 g g1 g2 g3 g4] at g5
          cases g5
        have ep : p = (s.tile, s.layer) := C.upstreamZ_unique hu s4
        rw [hh] at ep
        have e1 : q.tile = s.tile := congrArg Prod.fst ep
        have e2 : q.layer = s.layer := congrArg Prod.snd ep
        have := C.wf.unique q q1 s s1 e1 e2
        subst this
        have h6 := s6 q q1 rfl h0 (hfork q q1 q2 s3)
        rw [q2] at h6
        cases h6
      · exact absurd hh hqd
  · -- the signal begins at the neighbour in the previous lane
    rcases hu.inv with ⟨-, hh⟩ | ⟨-, -, -, -, hh, -⟩
    · have hp1 : pos dir p.1 = pos dir n.tile := by rw [hh]; exact p1.symm
      have := C.back_pos hu'
      dsimp only at this
      omega
    · exact absurd hh hmd

theorem allCuts_cross {q : Queue Tile Nat} (hq : q.Faithful) {timeout : Nat → Bool}
    (hc : allCuts q timeout dir w h nodes = some (S, del)) : ∀ n ∈ nodes, ∀ b, n.crossTile dir nodes = some b → b ∉ del := by
  intro n hn b hb hd
  unfold allCuts cutsOf at hc
  obtain ⟨h1, h2, h3, fs, h4, hf⟩ := cuts_facts hq hc
  rw [h4] at hd
  obtain ⟨l1, g, hg, l2⟩ := mem_cuts.1 hd
  have h5 := hf.free g hg _ l1
  rw [l2, mk_eta] at h5
  have h6 : (nodes.any fun n => (n.crossTile dir nodes).any fun b' => ((b.1 + 1, b.2 + 1) : Tile) == (b'.1 + 1, b'.2 + 1)) = true := by
    rw [List.any_eq_true]
    exact ⟨n, hn, by rw [hb]; simp⟩
  simp only [searchLayout, addObstructions, h6] at h5
  simp at h5

/-! ## Theorems -/

/-- C98. For horizontal searches, and for vertical ones with at most two cuts, every fan-in of every remaining tile is replaced
by the node, in its tile and layer, at which the signal path through deleted wires begins. Missing: vertical searches with more
cuts, for which the special case of crossings looks at the wrong row. -/
theorem C98_layers_partial (q : Queue Tile Nat) (hq : q.Faithful) (timeout : Nat → Bool) (dir : Dir) (w h : Nat)
    (nodes : List Node) (hw : WellFormed w h nodes) (L : Layered nodes) (S : Search) (del : List Tile)
    (hc : allCuts q timeout dir w h nodes = some (S, del))
    (hdir : dir = .horizontal ∨ ∀ a ≤ lanes dir w h, deletedIn dir del a ≤ 2) (n : Node) (hn : n ∈ nodes) (hr : n.tile ∉ del)
    (m : Node) (hm : m ∈ nodes)
    (hf : (n.fromWest = true ∧ m.toEast = true ∧ n.tile = (m.tile.1 + 1, m.tile.2)) ∨
      (n.fromNorth = true ∧ m.toSouth = true ∧ n.tile = (m.tile.1, m.tile.2 + 1))) :
    ∃ u z u', UpstreamZ nodes del (m.tile, m.layer) (u, z) ∧ Remains w h del u ∧ S.moved del u = some u' ∧
      S.newFanin nodes del n.tile m.tile = some u' ∧ S.newFaninLayer nodes del n.tile m.tile m.layer = z := by
  have hx := allCuts_cross hq hc
  have hc' := hc
  unfold allCuts at hc'
  obtain ⟨fs, C⟩ := Ctx.of hq hw hc'
  have hdir' : dir = .horizontal ∨ fs.length ≤ 2 := by
    rcases hdir with hh | hh
    · exact Or.inl hh
    · right
      have := hh 0 (Nat.zero_le _)
      rwa [C.del_eq, in_eq (by omega)] at this
  obtain ⟨u, u', c', a1, a2, a3, -, a5, -⟩ := C96_signals q hq timeout dir w h nodes _ hw S del hc' n hn hr m.tile
    (by
      rcases hf with ⟨f1, -, f3⟩ | ⟨f1, -, f3⟩
      · exact Or.inl ⟨f1, by rw [f3]; rfl⟩
      · exact Or.inr ⟨f1, by rw [f3]; rfl⟩)
  suffices hz : ∃ v, UpstreamZ nodes del (m.tile, m.layer) (v, S.newFaninLayer nodes del n.tile m.tile m.layer) by
    obtain ⟨v, hv⟩ := hz
    have := C.upstream_unique a1 hv.forget
    subst this
    exact ⟨u, _, u', hv, a2, a3, a5, rfl⟩
  by_cases hmd : m.tile ∈ del
  · have hin := C.wf.inside n hn
    have hl := (lane_le (dir := dir) hin).1
    have hz := (C.deleted hm hmd).1
    have split : (m.toLane dir = true ∧ n.fromLane dir = true ∧ n.tile = tileAt dir (lane dir m.tile + 1) (pos dir m.tile)) ∨
        (m.toPos dir = true ∧ n.tile = tileAt dir (lane dir m.tile) (pos dir m.tile + 1)) := by
      cases dir
      · rcases hf with ⟨f1, f2, f3⟩ | ⟨f1, f2, f3⟩
        · exact Or.inl ⟨f2, f1, f3⟩
        · exact Or.inr ⟨f2, f3⟩
      · rcases hf with ⟨f1, f2, f3⟩ | ⟨f1, f2, f3⟩
        · exact Or.inr ⟨f2, f3⟩
        · exact Or.inl ⟨f2, f1, f3⟩
    rcases split with ⟨f1, f2, f3⟩ | ⟨f1, f2⟩
    · have hlm : lane dir m.tile + 1 < lanes dir w h + 1 := by rw [f3, lane_mk] at hl; exact hl
      have ho := C.cross_out hm hmd f1 hlm (by rw [← f3]; exact hr)
      obtain ⟨v, hv⟩ := C.ground L hx hdir' hm hmd f1 hn f3 f2 ho
      refine ⟨v, ?_⟩
      unfold Search.newFaninLayer
      dsimp only
      rw [C.sdir, if_pos (by rw [f3, pos_mk]), hz]
      exact hv
    · have lm : lane dir n.tile = lane dir m.tile := by rw [f2, lane_mk]
      have pm : pos dir n.tile = pos dir m.tile + 1 := by rw [f2, pos_mk]
      have hmin := C.wf.inside m hm
      have ho := C.off_del (a := lane dir m.tile) (b := pos dir m.tile) (by omega) (by rw [mk_eta]; exact hmd)
      obtain ⟨v, hv⟩ := C.walk_layer L hx hdir' (pos dir m.tile) (lane dir m.tile) m
        (off fs (lane dir m.tile) (pos dir m.tile + 1)) hm hmd f1 (mk_eta _ _).symm (by omega)
      refine ⟨v, ?_⟩
      unfold Search.newFaninLayer
      dsimp only
      rw [C.sdir, if_neg (by omega), ← f2, C.matrix (by omega) hl, C.matrix (by omega) (by omega), lm, pm, if_pos (by omega)]
      exact hv
  · refine ⟨m.tile, ?_⟩
    have hlay : S.newFaninLayer nodes del n.tile m.tile m.layer = m.layer := by
      unfold Search.newFaninLayer
      dsimp only
      by_cases hp : pos S.dir m.tile = pos S.dir n.tile
      · rw [if_pos hp]
      · rw [if_neg hp, if_neg]
        intro hne
        apply hne
        rw [C.sdir] at hp ⊢
        have ht : tileAt dir (lane dir m.tile) (pos dir m.tile + 1) = n.tile := by
          cases dir
          · rcases hf with ⟨-, -, f3⟩ | ⟨-, -, f3⟩
            · exact absurd (by rw [f3]; rfl) hp
            · exact f3.symm
          · rcases hf with ⟨-, -, f3⟩ | ⟨-, -, f3⟩
            · exact f3.symm
            · exact absurd (by rw [f3]; rfl) hp
        have hin := C.wf.inside n hn
        have hmin := C.wf.inside m hm
        have lm := (lane_le (dir := dir) hmin).1
        have lt : lane dir n.tile = lane dir m.tile := by rw [← ht, lane_mk]
        have pt : pos dir n.tile = pos dir m.tile + 1 := by rw [← ht, pos_mk]
        rw [ht, C.matrix (by omega) (by omega), C.matrix (by omega) lm, lt, pt,
          C.off_rem lm (by rw [mk_eta]; exact hmd)]
    rw [hlay]
    exact UpstreamZ.here _ _ hmd

/-- C98. The two fan-ins of a remaining tile never become the same node, provided that only wires have signals to two sides. -/
theorem C98_distinct_partial (q : Queue Tile Nat) (hq : q.Faithful) (timeout : Nat → Bool) (dir : Dir) (w h : Nat)
    (nodes : List Node) (hw : WellFormed w h nodes) (L : Layered nodes)
    (hfork : ∀ n ∈ nodes, n.toEast = true → n.toSouth = true → n.isWire = true) (S : Search) (del : List Tile)
    (hc : allCuts q timeout dir w h nodes = some (S, del))
    (hdir : dir = .horizontal ∨ ∀ a ≤ lanes dir w h, deletedIn dir del a ≤ 2) (n : Node) (hn : n ∈ nodes) (hr : n.tile ∉ del)
    (m m' : Node) (hm : m ∈ nodes) (hm' : m' ∈ nodes)
    (hf : n.fromWest = true ∧ m.toEast = true ∧ n.tile = (m.tile.1 + 1, m.tile.2))
    (hf' : n.fromNorth = true ∧ m'.toSouth = true ∧ n.tile = (m'.tile.1, m'.tile.2 + 1)) :
    (S.newFanin nodes del n.tile m.tile, S.newFaninLayer nodes del n.tile m.tile m.layer) ≠
      (S.newFanin nodes del n.tile m'.tile, S.newFaninLayer nodes del n.tile m'.tile m'.layer) := by
  intro he
  obtain ⟨he, hz⟩ := Prod.mk.inj he
  obtain ⟨u, z, u', a1, a2, a3, a4, a5⟩ :=
    C98_layers_partial q hq timeout dir w h nodes hw L S del hc hdir n hn hr m hm (Or.inl hf)
  obtain ⟨v, y, v', b1, b2, b3, b4, b5⟩ :=
    C98_layers_partial q hq timeout dir w h nodes hw L S del hc hdir n hn hr m' hm' (Or.inr hf')
  have hx := allCuts_cross hq hc
  have e1 : u' = v' := Option.some.inj (by rw [← a4, ← b4, he])
  unfold allCuts at hc
  obtain ⟨fs, C⟩ := Ctx.of hq hw hc
  have hdir' : dir = .horizontal ∨ fs.length ≤ 2 := by
    rcases hdir with hh | hh
    · exact Or.inl hh
    · right
      have := hh 0 (Nat.zero_le _)
      rwa [C.del_eq, in_eq (by omega)] at this
  unfold cutsOf at hc
  have e2 := (C95_injective q hq timeout dir w h nodes _ _ S del hc u v u' v' a2 b2 a3 b3).1 e1
  have e3 : z = y := by rw [← a5, ← b5, hz]
  subst e2; subst e3
  cases dir
  · exact C.apart L hx hdir' hfork hn hr hf.1 hm hm' hf.2.1 hf.2.2 hf'.2.2 a1 b1
  · exact C.apart L hx hdir' (fun n hn h1 h2 => hfork n hn h2 h1) hn hr hf'.1 hm' hm hf'.2.1 hf'.2.2 hf.2.2 b1 a1

/-! ## Examples -/

/-- An input at (0, 1), whose signal crosses, in the upper layer, the signal of an input at (1, 0); the former goes on in row 1
and the latter in row 2 until they meet in a gate at (4, 2) with an output below. -/
def crossNodes : List Node := [
  ⟨(0, 1), 0, true, false, true, 1, 0, false, false, true, false, 0⟩,
  ⟨(1, 0), 0, true, false, true, 1, 0, false, false, false, true, 0⟩,
  ⟨(1, 1), 0, false, false, true, 1, 1, false, true, false, true, 0⟩,
  ⟨(1, 1), 1, false, false, true, 1, 1, true, false, true, false, 0⟩,
  ⟨(2, 1), 0, false, false, true, 1, 1, true, false, true, false, 1⟩,
  ⟨(3, 1), 0, false, false, true, 1, 1, true, false, true, false, 0⟩,
  ⟨(4, 1), 0, false, false, true, 1, 1, true, false, false, true, 0⟩,
  ⟨(1, 2), 0, false, false, true, 1, 1, false, true, true, false, 0⟩,
  ⟨(2, 2), 0, false, false, true, 1, 1, true, false, true, false, 0⟩,
  ⟨(3, 2), 0, false, false, true, 1, 1, true, false, true, false, 0⟩,
  ⟨(4, 2), 0, false, false, false, 1, 2, true, true, false, true, 0⟩,
  ⟨(4, 3), 0, false, true, true, 0, 1, false, true, false, false, 0⟩]

theorem crossNodes_wf : WellFormed 4 3 crossNodes :=
  ⟨by decide +kernel, by decide +kernel, by decide +kernel, by decide +kernel, by decide +kernel, by decide +kernel, by decide +kernel⟩

theorem crossNodes_layered : Layered crossNodes :=
  ⟨by decide +kernel, by decide +kernel, by decide +kernel, by decide +kernel⟩

/-- Two vertical cuts; the gate stays connected to two wires. -/
example : (allCuts (stdQueue Tile Nat) (fun _ => false) .vertical 4 3 crossNodes).map (fun r =>
    (r.2, r.1.newFanin crossNodes r.2 (4, 2) (4, 1), r.1.newFanin crossNodes r.2 (4, 2) (3, 2))) =
    some ([(2, 0), (3, 1), (3, 2), (3, 3), (3, 0), (2, 1), (2, 2), (2, 3)], some (2, 1), some (1, 2)) := by decide +kernel

/-- A fan-out at (1, 0) both of whose signals lead to the same gate at (2, 1). -/
def doubleNodes : List Node := [
  ⟨(0, 0), 0, true, false, true, 1, 0, false, false, true, false, 0⟩,
  ⟨(1, 0), 0, false, false, true, 2, 1, true, false, true, true, 0⟩,
  ⟨(2, 0), 0, false, false, true, 1, 1, true, false, false, true, 0⟩,
  ⟨(1, 1), 0, false, false, true, 1, 1, false, true, true, false, 0⟩,
  ⟨(2, 1), 0, false, false, false, 1, 2, true, true, true, false, 0⟩,
  ⟨(3, 1), 0, false, true, true, 0, 1, true, false, false, false, 0⟩]

theorem doubleNodes_wf : WellFormed 3 1 doubleNodes :=
  ⟨by decide +kernel, by decide +kernel, by decide +kernel, by decide +kernel, by decide +kernel, by decide +kernel,
    by decide +kernel⟩

example : Layered doubleNodes ∧ ∀ n ∈ doubleNodes, n.toEast = true → n.toSouth = true → n.isWire = true :=
  ⟨⟨by decide +kernel, by decide +kernel, by decide +kernel, by decide +kernel⟩, by decide +kernel⟩

/-- Without the special case, both wires would be deleted and both fan-ins of the gate would be the fan-out. -/
example : (cutsOf (stdQueue Tile Nat) (fun _ => false) .horizontal 3 1 doubleNodes (fun _ => false)).map (fun r =>
      (r.2, r.1.newFanin doubleNodes r.2 (2, 1) (1, 1), r.1.newFanin doubleNodes r.2 (2, 1) (2, 0))) =
      some ([(0, 1), (1, 1), (2, 0), (3, 0)], some (1, 0), some (1, 0)) := by decide +kernel

/-- With it, nothing is deleted. -/
example : (allCuts (stdQueue Tile Nat) (fun _ => false) .horizontal 3 1 doubleNodes).map (fun r =>
      (r.2, r.1.newFanin doubleNodes r.2 (2, 1) (1, 1), r.1.newFanin doubleNodes r.2 (2, 1) (2, 0))) =
      some ([], some (1, 1), some (2, 0)) := by decide +kernel

end Verif.Wiring
