import Verif.Optimization.WiringProps

/-!
# Wiring reduction: the wires left over are connected again (C96)

## Specification

`WellFormed` says what the nodes of a 2DDWave-clocked layout look like; `Upstream` follows a signal back through deleted wires
to the first tile that remains.
-/
namespace Verif.Wiring

open Verif.Paths

/-- The tile at the end of the signal path that leads to `t`, over deleted tiles only, that is not deleted itself. -/
inductive Upstream (nodes : List Node) (del : List Tile) : Tile → Tile → Prop where
  | here (t : Tile) : t ∉ del → Upstream nodes del t t
  | back (n : Node) (u : Tile) : n ∈ nodes → n.tile ∈ del → Upstream nodes del n.source u → Upstream nodes del n.tile u

/-- The nodes of a 2DDWave-clocked layout with largest coordinates `w` and `h`: signals come from the west and from the north
and go to the east and to the south. -/
structure WellFormed (w h : Nat) (nodes : List Node) : Prop where
  inside : ∀ n ∈ nodes, n.tile.1 ≤ w ∧ n.tile.2 ≤ h
  unique : ∀ n ∈ nodes, ∀ m ∈ nodes, n.tile = m.tile → n.layer = m.layer → n = m
  /-- Everything but inputs has one or two incoming signals. -/
  fed : ∀ n ∈ nodes, (n.isPi = true ∧ n.layer = 0) ∨ n.incoming = 1 ∨ n.incoming = 2
  single : ∀ n ∈ nodes, n.incoming = 1 → n.fromWest = !n.fromNorth
  /-- A wire with one successor has one outgoing signal. -/
  out : ∀ n ∈ nodes, n.isWire = true → n.fanouts = 1 → n.toEast = !n.toSouth
  west : ∀ n ∈ nodes, n.fromWest = true → 0 < n.tile.1 ∧
    ∃ m ∈ nodes, m.tile = (n.tile.1 - 1, n.tile.2) ∧ m.toEast = true ∧ (n.incoming = 1 → m.layer = n.sourceLayer)
  north : ∀ n ∈ nodes, n.fromNorth = true → 0 < n.tile.2 ∧
    ∃ m ∈ nodes, m.tile = (n.tile.1, n.tile.2 - 1) ∧ m.toSouth = true ∧ (n.incoming = 1 → m.layer = n.sourceLayer)

/-! ## Lemmas, in terms of lanes and positions -/

/-- The facts shared by all lemmas: a well-formed layout and its cuts. -/
structure Ctx (dir : Dir) (w h : Nat) (nodes : List Node) (S : Search) (del : List Tile) (fs : List (Nat → Nat)) : Prop where
  wf : WellFormed w h nodes
  sdir : S.dir = dir
  sX : S.X = w + 2
  sY : S.Y = h + 2
  del_eq : del = fs.flatMap (cutTiles dir (lanes dir w h + 1))
  cuts : ∃ free, Cuts dir (lanes dir w h + 1) (positions dir w h) free
    (fun u v => (nodes.any fun n => n.blocks dir (u.1 + 1, u.2 + 1) (v.1 + 1, v.2 + 1)) = false) fs
  solid : ∀ n ∈ nodes, n.tile ∈ del → n.layer = 0 ∧ n.incoming = 1 ∧ n.isWire = true ∧ n.fanouts = 1 ∧ n.solid dir = false
  bend : ∀ n ∈ nodes, ∀ b, n.bendTile dir nodes = some b → b ∉ del

variable {dir : Dir} {w h : Nat} {nodes : List Node} {S : Search} {del : List Tile} {fs : List (Nat → Nat)}

/-- The number of cuts before a position of a lane. -/
def off (fs : List (Nat → Nat)) (a b : Nat) : Nat := fs.countP fun g => decide (g a < b)

theorem lane_le {c : Tile} (hc : c.1 ≤ w ∧ c.2 ≤ h) : lane dir c < lanes dir w h + 1 ∧ pos dir c ≤ positions dir w h := by
  cases dir <;> simp only [lane, pos, lanes, positions] <;> omega

namespace Ctx

theorem pw (C : Ctx dir w h nodes S del fs) {a : Nat} (ha : a < lanes dir w h + 1) :
    fs.Pairwise (fun g g' => g a ≠ g' a) := by
  obtain ⟨_, hf⟩ := C.cuts
  exact hf.lane_ne ha

theorem near (C : Ctx dir w h nodes S del fs) {g : Nat → Nat} (hg : g ∈ fs) {a : Nat} (ha : a + 1 < lanes dir w h + 1) :
    Near (g a) (g (a + 1)) := by
  obtain ⟨_, hf⟩ := C.cuts
  exact hf.near g hg a ha

theorem mem (C : Ctx dir w h nodes S del fs) {a b : Nat} (ha : a < lanes dir w h + 1) :
    tileAt dir a b ∈ del ↔ ∃ g ∈ fs, g a = b := by
  rw [C.del_eq, mem_cuts, lane_mk, pos_mk]
  exact ⟨fun hh => hh.2, fun hh => ⟨ha, hh⟩⟩

theorem off_del (C : Ctx dir w h nodes S del fs) {a b : Nat} (ha : a < lanes dir w h + 1) (hd : tileAt dir a b ∈ del) :
    off fs a (b + 1) = off fs a b + 1 := by
  unfold off
  rw [count_succ a b fs (C.pw ha), if_pos ((C.mem ha).1 hd)]

theorem off_rem (C : Ctx dir w h nodes S del fs) {a b : Nat} (ha : a < lanes dir w h + 1) (hd : tileAt dir a b ∉ del) :
    off fs a (b + 1) = off fs a b := by
  unfold off
  rw [count_succ a b fs (C.pw ha), if_neg (fun hh => hd ((C.mem ha).2 hh)), Nat.add_zero]

theorem matrix (C : Ctx dir w h nodes S del fs) {c : Tile} (hc : c.1 ≤ w + 1 ∧ c.2 ≤ h + 1)
    (hl : lane dir c < lanes dir w h + 1) : offsetMatrix S del c.2 c.1 = off fs (lane dir c) (pos dir c) := by
  rw [offset_eq S del c (by rw [C.sX, C.sY]; omega), C.sdir, C.del_eq, before_eq hl]
  rfl

theorem off_le (C : Ctx dir w h nodes S del fs) {a : Nat} (ha : a < lanes dir w h + 1) (b : Nat) : off fs a b ≤ b :=
  count_le a fs (C.pw ha) b

/-- A cut does not use an obstructed connection. -/
theorem link (C : Ctx dir w h nodes S del fs) {n : Node} (hn : n ∈ nodes) {g : Nat → Nat} (hg : g ∈ fs) {a : Nat}
    (ha : a + 1 < lanes dir w h + 1) :
    n.blocks dir (tileAt dir (a + 1) (g a + 1)) (tileAt dir (a + 1 + 1) (g (a + 1) + 1)) = false := by
  obtain ⟨_, hf⟩ := C.cuts
  have := hf.link g hg a ha
  rw [shift_mk, shift_mk, List.any_eq_false] at this
  simpa using this n hn

theorem fromLane_source (C : Ctx dir w h nodes S del fs) {n : Node} (hn : n ∈ nodes) (hi : n.incoming = 1)
    (hl : n.fromLane dir = true) : 0 < lane dir n.tile ∧ n.source = tileAt dir (lane dir n.tile - 1) (pos dir n.tile) ∧
    ∃ m ∈ nodes, m.tile = n.source ∧ m.toLane dir = true ∧ m.layer = n.sourceLayer := by
  have h1 := C.wf.single n hn hi
  cases dir
  · simp only [Node.fromLane] at hl
    obtain ⟨h2, m, h3, h4, h5, h6⟩ := C.wf.west n hn hl
    have : n.source = (n.tile.1 - 1, n.tile.2) := by unfold Node.source; rw [if_pos hl]
    exact ⟨h2, this, m, h3, by rw [h4, this], h5, h6 hi⟩
  · simp only [Node.fromLane] at hl
    rw [hl] at h1
    obtain ⟨h2, m, h3, h4, h5, h6⟩ := C.wf.north n hn hl
    have : n.source = (n.tile.1, n.tile.2 - 1) := by unfold Node.source; rw [if_neg (by simp [h1])]
    exact ⟨h2, this, m, h3, by rw [h4, this], h5, h6 hi⟩

theorem fromPos_source (C : Ctx dir w h nodes S del fs) {n : Node} (hn : n ∈ nodes) (hi : n.incoming = 1)
    (hl : n.fromPos dir = true) : 0 < pos dir n.tile ∧ n.source = tileAt dir (lane dir n.tile) (pos dir n.tile - 1) ∧
    ∃ m ∈ nodes, m.tile = n.source ∧ m.toPos dir = true ∧ m.layer = n.sourceLayer := by
  have h1 := C.wf.single n hn hi
  cases dir
  · simp only [Node.fromPos] at hl
    rw [hl] at h1
    obtain ⟨h2, m, h3, h4, h5, h6⟩ := C.wf.north n hn hl
    have : n.source = (n.tile.1, n.tile.2 - 1) := by unfold Node.source; rw [if_neg (by simp [h1])]
    exact ⟨h2, this, m, h3, by rw [h4, this], h5, h6 hi⟩
  · simp only [Node.fromPos] at hl
    obtain ⟨h2, m, h3, h4, h5, h6⟩ := C.wf.west n hn hl
    have : n.source = (n.tile.1 - 1, n.tile.2) := by unfold Node.source; rw [if_pos hl]
    exact ⟨h2, this, m, h3, by rw [h4, this], h5, h6 hi⟩

theorem from_xor (C : Ctx dir w h nodes S del fs) {n : Node} (hn : n ∈ nodes) (hi : n.incoming = 1) :
    n.fromLane dir = !n.fromPos dir := by
  have h1 := C.wf.single n hn hi
  cases dir <;> simp only [Node.fromLane, Node.fromPos]
  · exact h1
  · rw [h1]; simp

/-- A deleted wire comes from one side, goes to one side and does not run along the search. -/
theorem deleted (C : Ctx dir w h nodes S del fs) {n : Node} (hn : n ∈ nodes) (hd : n.tile ∈ del) :
    n.layer = 0 ∧ n.incoming = 1 ∧ n.isWire = true ∧ n.solid dir = false ∧ n.toLane dir = (!n.toPos dir) ∧
    (n.toLane dir = true → n.fromPos dir = true) := by
  obtain ⟨h1, h2, h3, h4, h5⟩ := C.solid n hn hd
  have h6 := C.wf.out n hn h3 h4
  have h7 := C.from_xor hn h2
  refine ⟨h1, h2, h3, h5, ?_, ?_⟩
  · cases dir <;> simp only [Node.toLane, Node.toPos]
    · exact h6
    · rw [h6]; simp
  · intro ht
    by_contra hp
    have hl : n.fromLane dir = true := by rw [h7]; simpa using hp
    revert h5
    unfold Node.solid
    cases dir <;> simp only [Node.fromLane, Node.toLane] at hl ht <;> simp [hl, ht]

/-- A deleted wire that turns into the next lane: the cut leaves it towards the previous position. -/
theorem turnOut (C : Ctx dir w h nodes S del fs) {n : Node} (hn : n ∈ nodes) (hd : n.tile ∈ del) (ht : n.toLane dir = true)
    {g : Nat → Nat} (hg : g ∈ fs) (ha : lane dir n.tile + 1 < lanes dir w h + 1)
    (he : g (lane dir n.tile) = pos dir n.tile) : g (lane dir n.tile + 1) ≠ pos dir n.tile + 1 := by
  obtain ⟨h1, h2, h3, h4, h5, h6⟩ := C.deleted hn hd
  intro hh
  have hb := C.link hn hg ha
  rw [he, hh] at hb
  have e1 : tileAt dir (lane dir n.tile + 1) (pos dir n.tile + 1) = (n.tile.1 + 1, n.tile.2 + 1) := by cases dir <;> rfl
  have e2 : tileAt dir (lane dir n.tile + 1 + 1) (pos dir n.tile + 1 + 1) = (n.tile.1 + 1 + 1, n.tile.2 + 1 + 1) := by
    cases dir <;> rfl
  rw [e1, e2] at hb
  unfold Node.blocks at hb
  simp [h2, h4, h6 ht, ht] at hb

/-- A deleted wire that comes from the previous lane: the cut enters it from the next position. -/
theorem turnIn (C : Ctx dir w h nodes S del fs) {n : Node} (hn : n ∈ nodes) (hd : n.tile ∈ del) (ht : n.toPos dir = true)
    (hl : n.fromLane dir = true) {g : Nat → Nat} (hg : g ∈ fs) (ha : lane dir n.tile < lanes dir w h + 1)
    (he : g (lane dir n.tile) = pos dir n.tile) : g (lane dir n.tile - 1) + 1 ≠ pos dir n.tile := by
  obtain ⟨h1, h2, h3, h4, h5, h6⟩ := C.deleted hn hd
  obtain ⟨s1, s2, -⟩ := C.fromLane_source hn h2 hl
  intro hh
  have hb := C.link hn hg (a := lane dir n.tile - 1) (by omega)
  rw [show lane dir n.tile - 1 + 1 = lane dir n.tile by omega, he, hh] at hb
  have e1 : tileAt dir (lane dir n.tile) (pos dir n.tile) = n.tile := mk_eta _ _
  have e2 : tileAt dir (lane dir n.tile + 1) (pos dir n.tile + 1) = (n.tile.1 + 1, n.tile.2 + 1) := by cases dir <;> rfl
  rw [e1, e2] at hb
  unfold Node.blocks at hb
  simp [h2, h4, hl, ht] at hb

/-- No cut follows the connection into a deleted wire. -/
theorem noEnter (C : Ctx dir w h nodes S del fs) {n m : Node} (hn : n ∈ nodes) (hd : n.tile ∈ del)
    (hl : n.fromLane dir = true) (hs : n.sourceLayer = 0) {g : Nat → Nat} (hg : g ∈ fs)
    (ha : lane dir n.tile < lanes dir w h + 1) (he : g (lane dir n.tile) = pos dir n.tile) :
    g (lane dir n.tile - 1) ≠ pos dir n.tile := by
  obtain ⟨h1, h2, h3, h4, h5, h6⟩ := C.deleted hn hd
  obtain ⟨s1, s2, -⟩ := C.fromLane_source hn h2 hl
  intro hh
  have hb := C.link hn hg (a := lane dir n.tile - 1) (by omega)
  rw [show lane dir n.tile - 1 + 1 = lane dir n.tile by omega, he, hh] at hb
  have e1 : tileAt dir (lane dir n.tile) (pos dir n.tile + 1) = (n.source.1 + 1, n.source.2 + 1) := by
    rw [s2, shift_mk, show lane dir n.tile - 1 + 1 = lane dir n.tile by omega]
  have e2 : tileAt dir (lane dir n.tile + 1) (pos dir n.tile + 1) = (n.tile.1 + 1, n.tile.2 + 1) := by cases dir <;> rfl
  rw [e1, e2] at hb
  unfold Node.blocks at hb
  simp [h1, h2, hs] at hb

/-! ### Offsets of neighbouring lanes -/

theorem cross_rem (C : Ctx dir w h nodes S del fs) {a b : Nat} (ha : a + 1 < lanes dir w h + 1) (h1 : tileAt dir a b ∉ del)
    (h2 : tileAt dir (a + 1) b ∉ del) : off fs (a + 1) b = off fs a b := by
  unfold off
  apply List.countP_congr
  intro g hg
  have hn := C.near hg ha
  have n1 : g a ≠ b := fun hh => h1 ((C.mem (by omega)).2 ⟨g, hg, hh⟩)
  have n2 : g (a + 1) ≠ b := fun hh => h2 ((C.mem ha).2 ⟨g, hg, hh⟩)
  simp only [decide_eq_true_eq]
  unfold Near at hn
  omega

theorem cross_out (C : Ctx dir w h nodes S del fs) {n : Node} (hn : n ∈ nodes) (hd : n.tile ∈ del) (ht : n.toLane dir = true)
    (ha : lane dir n.tile + 1 < lanes dir w h + 1) (h2 : tileAt dir (lane dir n.tile + 1) (pos dir n.tile) ∉ del) :
    off fs (lane dir n.tile + 1) (pos dir n.tile) = off fs (lane dir n.tile) (pos dir n.tile) + 1 := by
  rw [← C.off_del (by omega) (by rw [mk_eta]; exact hd)]
  unfold off
  apply List.countP_congr
  intro g hg
  have hr := C.near hg ha
  have n2 : g (lane dir n.tile + 1) ≠ pos dir n.tile := fun hh => h2 ((C.mem ha).2 ⟨g, hg, hh⟩)
  have n3 := C.turnOut hn hd ht hg ha
  simp only [decide_eq_true_eq]
  unfold Near at hr
  by_cases he : g (lane dir n.tile) = pos dir n.tile
  · have := n3 he
    omega
  · omega

theorem cross_in (C : Ctx dir w h nodes S del fs) {n : Node} (hn : n ∈ nodes) (hd : n.tile ∈ del) (ht : n.toPos dir = true)
    (hl : n.fromLane dir = true) (ha : lane dir n.tile < lanes dir w h + 1)
    (h2 : tileAt dir (lane dir n.tile - 1) (pos dir n.tile) ∉ del) :
    off fs (lane dir n.tile) (pos dir n.tile) = off fs (lane dir n.tile - 1) (pos dir n.tile) := by
  obtain ⟨s1, -, -⟩ := C.fromLane_source hn (C.deleted hn hd).2.1 hl
  unfold off
  apply List.countP_congr
  intro g hg
  have hr := C.near hg (a := lane dir n.tile - 1) (by omega)
  rw [show lane dir n.tile - 1 + 1 = lane dir n.tile by omega] at hr
  have n2 : g (lane dir n.tile - 1) ≠ pos dir n.tile := fun hh => h2 ((C.mem (by omega)).2 ⟨g, hg, hh⟩)
  have n3 := C.turnIn hn hd ht hl hg ha
  simp only [decide_eq_true_eq]
  unfold Near at hr
  by_cases he : g (lane dir n.tile) = pos dir n.tile
  · have := n3 he
    omega
  · omega

theorem cross_both (C : Ctx dir w h nodes S del fs) {n m : Node} (hn : n ∈ nodes) (hd : n.tile ∈ del)
    (ht : n.toPos dir = true) (hl : n.fromLane dir = true) (ha : lane dir n.tile < lanes dir w h + 1) (hm : m ∈ nodes)
    (hmd : m.tile ∈ del) (hmt : m.tile = n.source) (hml : m.toLane dir = true) (hms : m.layer = n.sourceLayer) :
    off fs (lane dir n.tile) (pos dir n.tile) = off fs (lane dir n.tile - 1) (pos dir n.tile) + 1 := by
  obtain ⟨s1, s2, -⟩ := C.fromLane_source hn (C.deleted hn hd).2.1 hl
  have l1 : lane dir m.tile = lane dir n.tile - 1 := by rw [hmt, s2, lane_mk]
  have p1 : pos dir m.tile = pos dir n.tile := by rw [hmt, s2, pos_mk]
  rw [← C.off_del (by omega) (by rw [← s2, ← hmt]; exact hmd)]
  unfold off
  apply List.countP_congr
  intro g hg
  have hr := C.near hg (a := lane dir n.tile - 1) (by omega)
  rw [show lane dir n.tile - 1 + 1 = lane dir n.tile by omega] at hr
  have n1 := C.turnOut hm hmd hml hg (by omega)
  rw [l1, p1, show lane dir n.tile - 1 + 1 = lane dir n.tile by omega] at n1
  have n3 := C.turnIn hn hd ht hl hg ha
  have n4 := C.noEnter (m := m) hn hd hl (by rw [← hms]; exact (C.deleted hm hmd).1) hg ha
  simp only [decide_eq_true_eq]
  unfold Near at hr
  by_cases he : g (lane dir n.tile) = pos dir n.tile
  · have := n3 he
    have := n4 he
    omega
  · by_cases he2 : g (lane dir n.tile - 1) = pos dir n.tile
    · have := n1 he2
      omega
    · omega

/-! ### Following a signal -/

theorem wireAt_of (_ : Ctx dir w h nodes S del fs) {n : Node} (hn : n ∈ nodes) (h1 : n.layer = 0) (h2 : n.isWire = true) :
    wireAt nodes n.tile = true := by
  unfold wireAt
  rw [List.any_eq_true]
  exact ⟨n, hn, by simp [h1, h2]⟩

theorem fromLaneAt_eq (C : Ctx dir w h nodes S del fs) {n : Node} (hn : n ∈ nodes) (h1 : n.layer = 0) :
    fromLaneAt dir nodes n.tile = n.fromLane dir := by
  unfold fromLaneAt
  cases hl : n.fromLane dir
  · rw [List.any_eq_false]
    intro m hm hh
    simp only [Bool.and_eq_true, beq_iff_eq] at hh
    have := C.wf.unique m hm n hn hh.1.1 (by rw [hh.1.2, h1])
    subst this
    rw [hl] at hh
    simp at hh
  · rw [List.any_eq_true]
    exact ⟨n, hn, by simp [h1, hl]⟩

theorem incomingOf_eq (C : Ctx dir w h nodes S del fs) {n : Node} (hn : n ∈ nodes) (h1 : n.layer = 0) (h2 : n.incoming = 1) :
    incomingOf nodes n.tile = some n.source := by
  unfold incomingOf
  cases hf : nodes.find? (fun m => m.tile == n.tile && m.layer == 0) with
  | none =>
    have := List.find?_eq_none.1 hf n hn
    simp [h1] at this
  | some m =>
    have hm := List.mem_of_find?_eq_some hf
    have hp := List.find?_some hf
    simp only [Bool.and_eq_true, beq_iff_eq] at hp
    have := C.wf.unique m hm n hn hp.1 (by rw [hp.2, h1])
    subst this
    simp [h2]

/-- Above a deleted wire that turns into the next lane, the signal comes straight down the lane. -/
theorem upLane (C : Ctx dir w h nodes S del fs) {n : Node} (hn : n ∈ nodes) (hd : n.tile ∈ del) (ht : n.toLane dir = true)
    (ha : lane dir n.tile < lanes dir w h + 1) : ∀ (b : Nat) (m : Node), m ∈ nodes → m.toPos dir = true →
    m.tile = tileAt dir (lane dir n.tile) b →
    bendBefore dir nodes (lane dir n.tile) (pos dir n.tile) = bendBefore dir nodes (lane dir n.tile) (b + 1) →
    off fs (lane dir n.tile) (pos dir n.tile) + (b + 1) = off fs (lane dir n.tile) (b + 1) + pos dir n.tile →
    ∃ u, Upstream nodes del m.tile u ∧ u ∉ del ∧ u.1 ≤ w ∧ u.2 ≤ h ∧ lane dir u = lane dir n.tile ∧
      pos dir u + off fs (lane dir n.tile) (pos dir n.tile) + 1 = off fs (lane dir n.tile) (pos dir u) + pos dir n.tile := by
  intro b
  induction b with
  | zero =>
    intro m hm hmt hme hbb hoff
    by_cases hmd : m.tile ∈ del
    · exfalso
      obtain ⟨d1, d2, d3, d4, d5, d6⟩ := C.deleted hm hmd
      have hx := C.from_xor hm d2
      by_cases hl : m.fromLane dir = true
      · refine C.bend n hn m.tile ?_ hmd
        obtain ⟨e1, e2, e3, e4, e5, e6⟩ := C.deleted hn hd
        unfold Node.bendTile
        rw [if_pos (by simp [e2, e4, e6 ht, ht]), hbb]
        unfold bendBefore
        rw [← hme, if_pos (C.wireAt_of hm d1 d3), if_pos (by rw [C.fromLaneAt_eq hm d1]; exact hl)]
      · have hp : m.fromPos dir = true := by simpa [hx] using hl
        have := (C.fromPos_source hm d2 hp).1
        rw [hme, pos_mk] at this
        omega
    · have hin := C.wf.inside m hm
      refine ⟨m.tile, Upstream.here _ hmd, hmd, hin.1, hin.2, by rw [hme, lane_mk], ?_⟩
      rw [hme] at hmd ⊢
      rw [pos_mk]
      rw [C.off_rem ha hmd] at hoff
      omega
  | succ b ih =>
    intro m hm hmt hme hbb hoff
    by_cases hmd : m.tile ∈ del
    · obtain ⟨d1, d2, d3, d4, d5, d6⟩ := C.deleted hm hmd
      have hx := C.from_xor hm d2
      by_cases hl : m.fromLane dir = true
      · exfalso
        refine C.bend n hn m.tile ?_ hmd
        obtain ⟨e1, e2, e3, e4, e5, e6⟩ := C.deleted hn hd
        unfold Node.bendTile
        rw [if_pos (by simp [e2, e4, e6 ht, ht]), hbb]
        unfold bendBefore
        rw [← hme, if_pos (C.wireAt_of hm d1 d3), if_pos (by rw [C.fromLaneAt_eq hm d1]; exact hl)]
      · have hp : m.fromPos dir = true := by simpa [hx] using hl
        obtain ⟨f1, f2, m', f3, f4, f5, f6⟩ := C.fromPos_source hm d2 hp
        have f7 : m'.tile = tileAt dir (lane dir n.tile) b := by
          rw [f4, f2, hme, lane_mk, pos_mk]; rfl
        obtain ⟨u, u1, u2⟩ := ih m' f3 f5 f7 (by
          rw [hbb]
          conv_lhs => unfold bendBefore
          rw [← hme, if_pos (C.wireAt_of hm d1 d3), if_neg (by rw [C.fromLaneAt_eq hm d1]; exact hl)])
          (by
            rw [hme] at hmd
            rw [C.off_del ha hmd] at hoff
            omega)
        rw [f4] at u1
        exact ⟨u, Upstream.back m u hm hmd u1, u2⟩
    · have hin := C.wf.inside m hm
      refine ⟨m.tile, Upstream.here _ hmd, hmd, hin.1, hin.2, by rw [hme, lane_mk], ?_⟩
      rw [hme] at hmd ⊢
      rw [pos_mk]
      rw [C.off_rem ha hmd] at hoff
      omega

/-- The remaining tile upstream of a deleted wire that turns into the next lane. -/
theorem upTurn (C : Ctx dir w h nodes S del fs) {n : Node} (hn : n ∈ nodes) (hd : n.tile ∈ del) (ht : n.toLane dir = true) :
    ∃ u, Upstream nodes del n.tile u ∧ u ∉ del ∧ u.1 ≤ w ∧ u.2 ≤ h ∧ lane dir u = lane dir n.tile ∧
      pos dir u + off fs (lane dir n.tile) (pos dir n.tile) + 1 = off fs (lane dir n.tile) (pos dir u) + pos dir n.tile := by
  obtain ⟨d1, d2, d3, d4, d5, d6⟩ := C.deleted hn hd
  have ha := (lane_le (dir := dir) (C.wf.inside n hn)).1
  obtain ⟨f1, f2, m, f3, f4, f5, f6⟩ := C.fromPos_source hn d2 (d6 ht)
  have e : pos dir n.tile - 1 + 1 = pos dir n.tile := by omega
  obtain ⟨u, u1, u2⟩ := C.upLane hn hd ht ha (pos dir n.tile - 1) m f3 f5 (by rw [f4, f2]) (by rw [e]) (by rw [e])
  rw [f4] at u1
  exact ⟨u, Upstream.back n u hn hd u1, u2⟩

/-- The end of the walk at a wire that comes from the previous lane. -/
theorem walk_turn (C : Ctx dir w h nodes S del fs) {n : Node} (hn : n ∈ nodes) (hd : n.tile ∈ del) (ht : n.toPos dir = true)
    (hl : n.fromLane dir = true) {a b : Nat} (hne : n.tile = tileAt dir a b) (e : Nat)
    (ha : lane dir n.tile < lanes dir w h + 1) :
    ∃ r e' u, some (n.source, e + 1) = some (r, e') ∧ Upstream nodes del n.tile u ∧ u ∉ del ∧ u.1 ≤ w ∧ u.2 ≤ h ∧
      lane dir r = lane dir u ∧ pos dir r + e' + off fs (lane dir u) (pos dir u) = pos dir u + e + off fs a b + 1 ∧
      ((lane dir u = a ∧ pos dir u + 1 + off fs a b = b + off fs (lane dir u) (pos dir u)) ∨
       (lane dir u + 1 = a ∧ pos dir u + off fs a b = b + off fs (lane dir u) (pos dir u))) := by
  have d2 := (C.deleted hn hd).2.1
  obtain ⟨s1, s2, m, s3, s4, s5, s6⟩ := C.fromLane_source hn d2 hl
  have ea : lane dir n.tile = a := by rw [hne, lane_mk]
  have eb : pos dir n.tile = b := by rw [hne, pos_mk]
  have l1 : lane dir n.source = a - 1 := by rw [s2, lane_mk, ea]
  have p1 : pos dir n.source = b := by rw [s2, pos_mk, eb]
  have hmin := C.wf.inside m s3
  by_cases hmd : m.tile ∈ del
  · obtain ⟨u, u1, u2, u3, u4, u5, u6⟩ := C.upTurn s3 hmd s5
    have hb := C.cross_both hn hd ht hl ha s3 hmd s4 s5 s6
    rw [ea, eb] at hb
    rw [s4, l1, p1] at u6
    rw [s4] at u1 u5
    rw [l1] at u5
    refine ⟨_, _, u, rfl, Upstream.back n u hn hd u1, u2, u3, u4, by rw [l1, u5], ?_, Or.inr ⟨by omega, ?_⟩⟩
    · rw [p1, u5]; omega
    · rw [u5]; omega
  · have hs : n.source ∉ del := by rw [← s4]; exact hmd
    have hb := C.cross_in hn hd ht hl ha (by rw [← s2]; exact hs)
    rw [ea, eb] at hb
    rw [s4] at hmin
    refine ⟨_, _, n.source, rfl, Upstream.back n _ hn hd (Upstream.here _ hs), hs, hmin.1, hmin.2, rfl, ?_,
      Or.inr ⟨by rw [l1]; omega, ?_⟩⟩
    · rw [l1, p1]; omega
    · rw [l1, p1]; omega

/-- The walk over deleted wires. -/
theorem walk_spec (C : Ctx dir w h nodes S del fs) : ∀ (b a : Nat) (n : Node) (o e : Nat), n ∈ nodes → n.tile ∈ del →
    n.toPos dir = true → n.tile = tileAt dir a b → off fs a b < o →
    ∃ r e' u, walk S nodes del o n.tile e = some (r, e') ∧ Upstream nodes del n.tile u ∧ u ∉ del ∧ u.1 ≤ w ∧ u.2 ≤ h ∧
      lane dir r = lane dir u ∧ pos dir r + e' + off fs (lane dir u) (pos dir u) = pos dir u + e + off fs a b + 1 ∧
      ((lane dir u = a ∧ pos dir u + 1 + off fs a b = b + off fs (lane dir u) (pos dir u)) ∨
       (lane dir u + 1 = a ∧ pos dir u + off fs a b = b + off fs (lane dir u) (pos dir u))) := by
  intro b
  induction b with
  | zero =>
    intro a n o e hn hd ht hne ho
    obtain ⟨o, rfl⟩ : ∃ o', o = o' + 1 := ⟨o - 1, by omega⟩
    obtain ⟨d1, d2, d3, d4, d5, d6⟩ := C.deleted hn hd
    have hin := lane_le (dir := dir) (C.wf.inside n hn)
    have ea : lane dir n.tile = a := by rw [hne, lane_mk]
    have eb : pos dir n.tile = 0 := by rw [hne, pos_mk]
    have hx := C.from_xor hn d2
    have hl : n.fromLane dir = true := by
      by_contra hl
      have hp : n.fromPos dir = true := by simpa [hx] using hl
      have := (C.fromPos_source hn d2 hp).1
      omega
    unfold walk
    rw [C.incomingOf_eq hn d1 d2]
    dsimp only
    rw [if_neg (by rw [C.sdir]; omega)]
    exact C.walk_turn hn hd ht hl hne e hin.1
  | succ b ih =>
    intro a n o e hn hd ht hne ho
    obtain ⟨o, rfl⟩ : ∃ o', o = o' + 1 := ⟨o - 1, by omega⟩
    obtain ⟨d1, d2, d3, d4, d5, d6⟩ := C.deleted hn hd
    have hin := lane_le (dir := dir) (C.wf.inside n hn)
    have ea : lane dir n.tile = a := by rw [hne, lane_mk]
    have eb : pos dir n.tile = b + 1 := by rw [hne, pos_mk]
    have hx := C.from_xor hn d2
    unfold walk
    rw [C.incomingOf_eq hn d1 d2]
    dsimp only
    by_cases hl : n.fromLane dir = true
    · rw [if_neg]
      · exact C.walk_turn hn hd ht hl hne e hin.1
      · rintro ⟨-, -, hh⟩
        apply hh
        rw [C.sdir, (C.fromLane_source hn d2 hl).2.1, pos_mk]
    · have hp : n.fromPos dir = true := by simpa [hx] using hl
      obtain ⟨f1, f2, m, f3, f4, f5, f6⟩ := C.fromPos_source hn d2 hp
      have es : n.source = tileAt dir a b := by rw [f2, ea, eb]; rfl
      have ep : tileAt S.dir (lane S.dir n.tile) (pos S.dir n.tile - 1) = n.source := by rw [C.sdir, f2]
      rw [ep]
      have hmin := C.wf.inside m f3
      rw [f4] at hmin
      have hnin := C.wf.inside n hn
      have m1 : offsetMatrix S del n.tile.2 n.tile.1 = off fs a (b + 1) := by
        rw [C.matrix (by omega) hin.1, ea, eb]
      have m2 : offsetMatrix S del n.source.2 n.source.1 = off fs a b := by
        rw [C.matrix (by omega) (by rw [es, lane_mk]; omega), es, lane_mk, pos_mk]
      rw [m1, m2]
      by_cases hmd : m.tile ∈ del
      · have hs : tileAt dir a b ∈ del := by rw [← es, ← f4]; exact hmd
        have ho' := C.off_del (by omega) hs
        rw [if_pos ⟨by rw [C.sdir]; omega, by omega, by rw [C.sdir, es, pos_mk, eb]; omega⟩, ← f4]
        obtain ⟨r, e', u, w1, w2, w3, w4, w5, w6, w7, w8⟩ := ih a m o (e + 1) f3 hmd f5 (by rw [f4, es]) (by omega)
        rw [f4] at w2
        exact ⟨r, e', u, w1, Upstream.back n u hn hd w2, w3, w4, w5, w6, by omega, by omega⟩
      · have hs : tileAt dir a b ∉ del := by rw [← es, ← f4]; exact hmd
        have ho' := C.off_rem (by omega) hs
        rw [if_neg (by omega)]
        refine ⟨_, _, n.source, rfl, Upstream.back n _ hn hd (Upstream.here _ (by rw [es]; exact hs)), by rw [es]; exact hs,
          hmin.1, hmin.2, rfl, ?_, Or.inl ⟨by rw [es, lane_mk], ?_⟩⟩
        · rw [es, lane_mk, pos_mk]; omega
        · rw [es, lane_mk, pos_mk]; omega

end Ctx

theorem Ctx.moved (C : Ctx dir w h nodes S del fs) {c : Tile} (hc : c.1 ≤ w ∧ c.2 ≤ h) :
    S.moved del c = some (tileAt dir (lane dir c) (pos dir c - off fs (lane dir c) (pos dir c))) := by
  have hl := (lane_le (dir := dir) hc).1
  have ho := C.off_le hl (pos dir c)
  unfold Search.moved
  rw [C.matrix (by omega) hl, C.sdir]
  generalize off fs (lane dir c) (pos dir c) = o at ho ⊢
  cases dir <;> exact if_pos ho

theorem Ctx.lift (C : Ctx dir w h nodes S del fs) {f : Tile} {o e : Nat} (ho : o ≤ pos dir f + e) :
    S.lift f o e = some (tileAt dir (lane dir f) (pos dir f + e - o)) := by
  unfold Search.lift
  rw [C.sdir, if_pos ho]

theorem Ctx.of {q : Queue Tile Nat} (hq : q.Faithful) {timeout : Nat → Bool} {other : Tile → Bool}
    (hw : WellFormed w h nodes) (hc : cutsOf q timeout dir w h nodes other = some (S, del)) :
    ∃ fs, Ctx dir w h nodes S del fs := by
  unfold cutsOf at hc
  obtain ⟨h1, h2, h3, fs, h4, hf⟩ := cuts_facts hq hc
  refine ⟨fs, hw, h1, h2, h3, h4, ⟨_, hf⟩, ?_, ?_⟩
  · intro n hn hd
    have hp := fun hh => C95_protected q hq timeout dir w h nodes _ _ S del hc n hn hh hd
    have hfed := hw.fed n hn
    by_cases hi : n.incoming = 1
    · have e1 : n.isWire = true := by
        by_contra hh; exact hp (Or.inr (Or.inr ⟨hi, Or.inl (by simpa using hh)⟩))
      have e2 : n.fanouts = 1 := by
        by_contra hh; exact hp (Or.inr (Or.inr ⟨hi, Or.inr (Or.inl hh)⟩))
      have e3 : n.layer = 0 := by
        by_contra hh; exact hp (Or.inr (Or.inr ⟨hi, Or.inr (Or.inr (Or.inl hh))⟩))
      refine ⟨e3, hi, e1, e2, ?_⟩
      rw [Bool.eq_false_iff]
      intro hs
      apply hp
      refine Or.inr (Or.inr ⟨hi, ?_⟩)
      unfold Node.solid at hs
      simp only [e1, e2, e3] at hs
      simp at hs
      tauto
    · exfalso
      rcases hfed with hh | hh | hh
      · exact hp (Or.inl ⟨hh.2, Or.inl hh.1⟩)
      · exact hi hh
      · exact hp (Or.inr (Or.inl hh))
  · intro n hn b hb hd
    rw [h4] at hd
    obtain ⟨l1, g, hg, l2⟩ := mem_cuts.1 hd
    have h5 := hf.free g hg _ l1
    rw [l2, mk_eta] at h5
    have h6 : (nodes.any fun n => (n.bendTile dir nodes).any fun b' => ((b.1 + 1, b.2 + 1) : Tile) == (b'.1 + 1, b'.2 + 1)) = true := by
      rw [List.any_eq_true]
      exact ⟨n, hn, by rw [hb]; simp⟩
    simp only [searchLayout, addObstructions, h6] at h5
    simp at h5

/-- Signals from the previous lane. -/
theorem Ctx.signal_lane (C : Ctx dir w h nodes S del fs) {c : Tile} (hc : c.1 ≤ w ∧ c.2 ≤ h) (hr : c ∉ del) {m : Node}
    (hm : m ∈ nodes) (ht : m.toLane dir = true) (h0 : 0 < lane dir c) (he : m.tile = tileAt dir (lane dir c - 1) (pos dir c)) :
    ∃ u u', Upstream nodes del m.tile u ∧ Remains w h del u ∧ S.moved del u = some u' ∧
      S.newFanin nodes del c m.tile = some u' ∧
      S.moved del c = some (tileAt dir (lane dir u' + 1) (pos dir u')) := by
  have hl := (lane_le (dir := dir) hc).1
  have l1 : lane dir m.tile = lane dir c - 1 := by rw [he, lane_mk]
  have p1 : pos dir m.tile = pos dir c := by rw [he, pos_mk]
  have hmin := C.wf.inside m hm
  have hnf : S.newFanin nodes del c m.tile =
      some (tileAt dir (lane dir c - 1) (pos dir c - off fs (lane dir c) (pos dir c))) := by
    unfold Search.newFanin
    dsimp only
    rw [if_pos (by rw [C.sdir]; exact p1), C.matrix (by omega) hl, C.lift (by rw [p1]; have := C.off_le hl (pos dir c); omega),
      l1, p1, Nat.add_zero]
  have e1 : lane dir c - 1 + 1 = lane dir c := by omega
  rw [hnf, C.moved hc]
  have hle := C.off_le hl (pos dir c)
  by_cases hmd : m.tile ∈ del
  · obtain ⟨u, u1, u2, u3, u4, u5, u6⟩ := C.upTurn hm hmd ht
    have hx := C.cross_out hm hmd ht (by omega) (by rw [l1, p1, e1, mk_eta]; exact hr)
    rw [l1, p1, e1] at hx
    rw [l1, p1] at u6
    rw [l1] at u5
    have hle2 := C.off_le (a := lane dir c - 1) (by omega) (pos dir u)
    refine ⟨u, _, u1, ⟨u3, u4, u2⟩, C.moved ⟨u3, u4⟩, ?_, ?_⟩
    · rw [u5, Option.some.injEq, mk_inj]; omega
    · rw [lane_mk, pos_mk, u5, Option.some.injEq, mk_inj]; omega
  · have hx := C.cross_rem (a := lane dir c - 1) (b := pos dir c) (by omega) (by rw [← he]; exact hmd)
      (by rw [e1, mk_eta]; exact hr)
    rw [e1] at hx
    refine ⟨m.tile, _, Upstream.here _ hmd, ⟨hmin.1, hmin.2, hmd⟩, C.moved hmin, ?_, ?_⟩
    · rw [l1, p1, Option.some.injEq, mk_inj]; omega
    · rw [lane_mk, pos_mk, l1, p1, Option.some.injEq, mk_inj]; omega

/-- Signals from the previous position. -/
theorem Ctx.signal_pos (C : Ctx dir w h nodes S del fs) {c : Tile} (hc : c.1 ≤ w ∧ c.2 ≤ h) {m : Node}
    (hm : m ∈ nodes) (ht : m.toPos dir = true) (h0 : 0 < pos dir c) (he : m.tile = tileAt dir (lane dir c) (pos dir c - 1)) :
    ∃ u u', Upstream nodes del m.tile u ∧ Remains w h del u ∧ S.moved del u = some u' ∧
      S.newFanin nodes del c m.tile = some u' ∧
      (S.moved del c = some (tileAt dir (lane dir u' + 1) (pos dir u')) ∨
       S.moved del c = some (tileAt dir (lane dir u') (pos dir u' + 1))) := by
  have hl := (lane_le (dir := dir) hc).1
  have l1 : lane dir m.tile = lane dir c := by rw [he, lane_mk]
  have p1 : pos dir m.tile = pos dir c - 1 := by rw [he, pos_mk]
  have hmin := C.wf.inside m hm
  have e1 : pos dir c - 1 + 1 = pos dir c := by omega
  have hle := C.off_le hl (pos dir c)
  have hle1 := C.off_le hl (pos dir c - 1)
  have en : tileAt S.dir (lane S.dir m.tile) (pos S.dir m.tile + 1) = c := by rw [C.sdir, l1, p1, e1, mk_eta]
  rw [C.moved hc]
  unfold Search.newFanin
  dsimp only
  rw [if_neg (by rw [C.sdir]; omega), en, C.matrix (by omega) hl, C.matrix (by omega) (by omega), l1, p1]
  by_cases hmd : m.tile ∈ del
  · have hx := C.off_del hl (b := pos dir c - 1) (by rw [← he]; exact hmd)
    rw [e1] at hx
    rw [if_pos (by omega)]
    obtain ⟨r, e', u, w1, w2, w3, w4, w5, w6, w7, w8⟩ :=
      C.walk_spec (pos dir c - 1) (lane dir c) m (off fs (lane dir c) (pos dir c)) 0 hm hmd ht he (by omega)
    have hlu := (lane_le (dir := dir) (⟨w4, w5⟩ : u.1 ≤ w ∧ u.2 ≤ h)).1
    have hle2 := C.off_le hlu (pos dir u)
    rw [w1]
    dsimp only
    refine ⟨u, _, w2, ⟨w4, w5, w3⟩, C.moved ⟨w4, w5⟩, ?_, ?_⟩
    · rw [C.lift (by omega), w6, Option.some.injEq, mk_inj]; omega
    · rw [lane_mk, pos_mk, Option.some.injEq, Option.some.injEq, mk_inj, mk_inj]
      omega
  · have hx := C.off_rem hl (b := pos dir c - 1) (by rw [← he]; exact hmd)
    rw [e1] at hx
    rw [if_neg (by omega)]
    refine ⟨m.tile, _, Upstream.here _ hmd, ⟨hmin.1, hmin.2, hmd⟩, C.moved hmin, ?_, Or.inr ?_⟩
    · rw [C.lift (by omega), l1, p1, Option.some.injEq, mk_inj]; omega
    · rw [lane_mk, pos_mk, l1, p1, Option.some.injEq, mk_inj]; omega

/-! ## Theorem -/

/-- C96. For every remaining tile and each of its fan-ins `f`, the place that the tile is connected to after the deletion is the
new place of the remaining tile at which the signal path through `f` and deleted wires begins, and this place is the western or
northern neighbour of the new place of the tile. -/
theorem C96_signals (q : Queue Tile Nat) (hq : q.Faithful) (timeout : Nat → Bool) (dir : Dir) (w h : Nat) (nodes : List Node)
    (other : Tile → Bool) (hw : WellFormed w h nodes) (S : Search) (del : List Tile)
    (hc : cutsOf q timeout dir w h nodes other = some (S, del)) (n : Node) (hn : n ∈ nodes) (hr : n.tile ∉ del) (f : Tile)
    (hf : (n.fromWest = true ∧ f = (n.tile.1 - 1, n.tile.2)) ∨ (n.fromNorth = true ∧ f = (n.tile.1, n.tile.2 - 1))) :
    ∃ u u' c', Upstream nodes del f u ∧ Remains w h del u ∧ S.moved del u = some u' ∧ S.moved del n.tile = some c' ∧
      S.newFanin nodes del n.tile f = some u' ∧ (c' = (u'.1 + 1, u'.2) ∨ c' = (u'.1, u'.2 + 1)) := by
  obtain ⟨fs, C⟩ := Ctx.of hq hw hc
  have hin := hw.inside n hn
  rcases hf with ⟨hf, rfl⟩ | ⟨hf, rfl⟩
  · obtain ⟨h0, m, hm, ht, ho, -⟩ := hw.west n hn hf
    rw [← ht]
    cases dir
    · obtain ⟨u, u', a1, a2, a3, a4, a5⟩ := C.signal_lane hin hr hm ho h0 ht
      exact ⟨u, u', _, a1, a2, a3, a5, a4, Or.inl rfl⟩
    · obtain ⟨u, u', a1, a2, a3, a4, a5 | a5⟩ := C.signal_pos hin hm ho h0 ht
      · exact ⟨u, u', _, a1, a2, a3, a5, a4, Or.inr rfl⟩
      · exact ⟨u, u', _, a1, a2, a3, a5, a4, Or.inl rfl⟩
  · obtain ⟨h0, m, hm, ht, ho, -⟩ := hw.north n hn hf
    rw [← ht]
    cases dir
    · obtain ⟨u, u', a1, a2, a3, a4, a5 | a5⟩ := C.signal_pos hin hm ho h0 ht
      · exact ⟨u, u', _, a1, a2, a3, a5, a4, Or.inl rfl⟩
      · exact ⟨u, u', _, a1, a2, a3, a5, a4, Or.inr rfl⟩
    · obtain ⟨u, u', a1, a2, a3, a4, a5⟩ := C.signal_lane hin hr hm ho h0 ht
      exact ⟨u, u', _, a1, a2, a3, a5, a4, Or.inr rfl⟩

/-! ## An example -/

/-- The layout of the example is well-formed. -/
theorem exNodes_wf : WellFormed 1 2 exNodes :=
  ⟨by decide +kernel, by decide +kernel, by decide +kernel, by decide +kernel, by decide +kernel, by decide +kernel, by decide +kernel⟩

/-- The wire at (0, 1) is deleted, and the wire below it is connected to the input. The output is connected to this wire. -/
example : (cutsOf (stdQueue Tile Nat) (fun _ => false) .horizontal 1 2 exNodes (fun _ => false)).map
    (fun r => (r.2, r.1.newFanin exNodes r.2 (0, 2) (0, 1), r.1.newFanin exNodes r.2 (1, 2) (0, 2))) =
    some ([(0, 1), (1, 1)], some (0, 0), some (0, 1)) := by decide +kernel

end Verif.Wiring
