import Verif.Optimization.WiringLemmas
import Verif.Paths.Heap
import Mathlib.Data.List.Nodup

/-!
# Wiring reduction: cuts are disjoint and the remaining tiles close ranks (C95)

## Specification

A horizontal search cuts the columns of a layout, a vertical one its rows; `lane` is the column (or row) of a tile and `pos` its
position within it (WiringLemmas.lean). A tile remains if it is in the layout and not deleted.
-/
namespace Verif.Wiring

open Verif.Paths

/-- A tile of a layout with largest coordinates `w` and `h` that is not deleted. -/
def Remains (w h : Nat) (del : List Tile) (c : Tile) : Prop := c.1 ≤ w ∧ c.2 ≤ h ∧ c ∉ del

/-- The number of deleted tiles in a lane. -/
def deletedIn (d : Dir) (del : List Tile) (a : Nat) : Nat := (del.filter fun c => lane d c == a).length

/-- The number of deleted tiles before a tile in its lane. -/
def deletedBefore (d : Dir) (del : List Tile) (c : Tile) : Nat :=
  (del.filter fun e => lane d e == lane d c && decide (pos d e < pos d c)).length

/-! ## Counting -/

theorem bumpRows_eq (x y : Nat) : ∀ (n : Nat) (m : Matrix) (r k : Nat),
    bumpRows x y n m r k = m r k + if k = x ∧ y < r ∧ r ≤ n then 1 else 0
  | 0, m, r, k => by
    rw [if_neg (by omega)]; rfl
  | n + 1, m, r, k => by
    unfold bumpRows
    split_ifs with h1 h2 h2
    · rw [bumpRows_eq]
      split_ifs <;> omega
    · rw [bumpRows_eq]
      split_ifs <;> omega
    · omega
    · simp

theorem bumpColumns_eq (x y : Nat) : ∀ (n : Nat) (m : Matrix) (r k : Nat),
    bumpColumns x y n m r k = m r k + if r = y ∧ x < k ∧ k ≤ n then 1 else 0
  | 0, m, r, k => by
    rw [if_neg (by omega)]; rfl
  | n + 1, m, r, k => by
    unfold bumpColumns
    split_ifs with h1 h2 h2
    · rw [bumpColumns_eq]
      split_ifs <;> omega
    · rw [bumpColumns_eq]
      split_ifs <;> omega
    · omega
    · simp

theorem before_cons (d : Dir) (e : Tile) (del : List Tile) (c : Tile) : deletedBefore d (e :: del) c =
    (if lane d e = lane d c ∧ pos d e < pos d c then 1 else 0) + deletedBefore d del c := by
  unfold deletedBefore
  rw [← List.countP_eq_length_filter, ← List.countP_eq_length_filter, List.countP_cons]
  simp only [Bool.and_eq_true, beq_iff_eq, decide_eq_true_eq]
  omega

theorem offsetStep_eq (S : Search) (c : Tile) (hc : c.1 ≤ S.X ∧ c.2 ≤ S.Y) (m : Matrix) (e : Tile) :
    offsetStep S m e c.2 c.1 = m c.2 c.1 + if lane S.dir e = lane S.dir c ∧ pos S.dir e < pos S.dir c then 1 else 0 := by
  unfold offsetStep
  cases hd : S.dir
  · by_cases h : e.1 = c.1 ∧ e.2 < c.2
    · rw [if_pos (show lane .horizontal e = lane .horizontal c ∧ pos .horizontal e < pos .horizontal c from h)]
      simp only [bumpRows_eq]
      rw [if_pos (by omega)]
    · rw [if_neg (show ¬ (lane .horizontal e = lane .horizontal c ∧ pos .horizontal e < pos .horizontal c) from h)]
      simp only [bumpRows_eq]
      rw [if_neg (by omega)]
  · by_cases h : e.2 = c.2 ∧ e.1 < c.1
    · rw [if_pos (show lane .vertical e = lane .vertical c ∧ pos .vertical e < pos .vertical c from h)]
      simp only [bumpColumns_eq]
      rw [if_pos (by omega)]
    · rw [if_neg (show ¬ (lane .vertical e = lane .vertical c ∧ pos .vertical e < pos .vertical c) from h)]
      simp only [bumpColumns_eq]
      rw [if_neg (by omega)]

theorem offset_fold (S : Search) (c : Tile) (hc : c.1 ≤ S.X ∧ c.2 ≤ S.Y) : ∀ (del : List Tile) (m : Matrix),
    del.foldl (offsetStep S) m c.2 c.1 = m c.2 c.1 + deletedBefore S.dir del c
  | [], m => by simp [deletedBefore]
  | e :: del, m => by
    rw [List.foldl_cons, offset_fold S c hc del]
    rw [before_cons, offsetStep_eq S c hc]
    omega

theorem offset_eq (S : Search) (del : List Tile) (c : Tile) (hc : c.1 ≤ S.X ∧ c.2 ≤ S.Y) :
    offsetMatrix S del c.2 c.1 = deletedBefore S.dir del c := by
  have := offset_fold S c hc del (fun _ _ => 0)
  simpa [offsetMatrix] using this

theorem cut_filter (d : Dir) (a : Nat) (P : Nat → Bool) (g : Nat → Nat) : ∀ n,
    ((cutTiles d n g).filter fun c => lane d c == a && P (pos d c)).length = if a < n ∧ P (g a) = true then 1 else 0
  | 0 => by simp [cutTiles]
  | n + 1 => by
    have := cut_filter d a P g n
    unfold cutTiles at *
    rw [List.range_succ, List.map_append, List.filter_append, List.length_append, this]
    simp only [List.map_cons, List.map_nil, List.filter_cons, List.filter_nil, lane_mk, pos_mk]
    by_cases h : n = a
    · subst h
      cases P (g n) <;> simp
    · have : (n == a) = false := by simpa using h
      simp only [this, Bool.false_and]
      simp
      congr 1
      rw [eq_iff_iff]
      constructor <;> rintro ⟨h1, h2⟩ <;> exact ⟨by omega, h2⟩

theorem cuts_filter (d : Dir) (n a : Nat) (ha : a < n) (P : Nat → Bool) : ∀ fs : List (Nat → Nat),
    ((fs.flatMap (cutTiles d n)).filter fun c => lane d c == a && P (pos d c)).length = fs.countP fun g => P (g a)
  | [] => by simp
  | g :: fs => by
    rw [List.flatMap_cons, List.filter_append, List.length_append, cut_filter, cuts_filter d n a ha P fs, List.countP_cons]
    simp [ha]
    omega

theorem mem_cuts {d : Dir} {n : Nat} {fs : List (Nat → Nat)} {c : Tile} :
    c ∈ fs.flatMap (cutTiles d n) ↔ lane d c < n ∧ ∃ g ∈ fs, g (lane d c) = pos d c := by
  simp only [List.mem_flatMap, cutTiles, List.mem_map, List.mem_range]
  constructor
  · rintro ⟨g, hg, i, hi, rfl⟩
    rw [lane_mk, pos_mk]; exact ⟨hi, g, hg, rfl⟩
  · rintro ⟨h, g, hg, h'⟩
    refine ⟨g, hg, _, h, ?_⟩
    rw [h', mk_eta]

/-- The number of values below `b`. -/
theorem count_succ (a b : Nat) : ∀ fs : List (Nat → Nat), fs.Pairwise (fun g g' => g a ≠ g' a) →
    fs.countP (fun g => decide (g a < b + 1)) = fs.countP (fun g => decide (g a < b)) + if ∃ g ∈ fs, g a = b then 1 else 0
  | [], _ => by simp
  | g :: fs, h => by
    rw [List.pairwise_cons] at h
    rw [List.countP_cons, List.countP_cons, count_succ a b fs h.2]
    by_cases hg : g a = b
    · have h1 : ¬ ∃ g' ∈ fs, g' a = b := by
        rintro ⟨g', h2, h3⟩
        exact h.1 g' h2 (by omega)
      have h2 : ∃ g' ∈ g :: fs, g' a = b := ⟨g, by simp, hg⟩
      rw [if_neg h1, if_pos h2]
      simp [hg]
    · have h2 : (∃ g' ∈ g :: fs, g' a = b) ↔ ∃ g' ∈ fs, g' a = b := by
        simp [hg]
      simp only [h2]
      have : (g a < b + 1) ↔ g a < b := by omega
      simp only [this]
      omega

theorem count_le (a : Nat) (fs : List (Nat → Nat)) (h : fs.Pairwise (fun g g' => g a ≠ g' a)) : ∀ b,
    fs.countP (fun g => decide (g a < b)) ≤ b
  | 0 => by simp
  | b + 1 => by
    rw [count_succ a b fs h]
    have := count_le a fs h b
    split_ifs <;> omega

/-- Every position below the number of remaining ones is taken. -/
theorem count_onto (a : Nat) (fs : List (Nat → Nat)) (h : fs.Pairwise (fun g g' => g a ≠ g' a)) : ∀ b j,
    j + fs.countP (fun g => decide (g a < b)) < b →
    ∃ b', b' < b ∧ (¬ ∃ g ∈ fs, g a = b') ∧ j + fs.countP (fun g => decide (g a < b')) = b'
  | 0, j, hj => by omega
  | b + 1, j, hj => by
    rw [count_succ a b fs h] at hj
    by_cases hb : ∃ g ∈ fs, g a = b
    · rw [if_pos hb] at hj
      obtain ⟨b', h1, h2⟩ := count_onto a fs h b j (by omega)
      exact ⟨b', by omega, h2⟩
    · rw [if_neg hb] at hj
      rcases Nat.lt_or_ge (j + fs.countP (fun g => decide (g a < b))) b with h1 | h1
      · obtain ⟨b', h1, h2⟩ := count_onto a fs h b j h1
        exact ⟨b', by omega, h2⟩
      · exact ⟨b, by omega, hb, by omega⟩

/-- Remaining positions keep their order. -/
theorem count_mono (a : Nat) (fs : List (Nat → Nat)) (h : fs.Pairwise (fun g g' => g a ≠ g' a)) (b : Nat)
    (hb : ¬ ∃ g ∈ fs, g a = b) : ∀ k,
    fs.countP (fun g => decide (g a < b + 1 + k)) ≤ fs.countP (fun g => decide (g a < b)) + k
  | 0 => by rw [Nat.add_zero, count_succ a b fs h, if_neg hb]
  | k + 1 => by
    have := count_mono a fs h b hb k
    rw [← Nat.add_assoc, count_succ a _ fs h]
    split_ifs <;> omega

/-! ## The result of the search -/

theorem searchLayout_start (dir : Dir) (w h : Nat) (nodes : List Node) (extra : Tile → Bool) (conn : Tile → Tile → Bool) :
    LoopInv (searchLayout dir w h nodes extra conn) (searchLayout dir w h nodes extra conn) [] [] := by
  refine ⟨rfl, rfl, rfl, rfl, by simp, by simp, ?_, ?_, ?_, ?_, ?_⟩ <;> simp

theorem searchLayout_border (dir : Dir) (w h : Nat) (nodes : List Node) (extra : Tile → Bool) (conn : Tile → Tile → Bool)
    (i j : Nat) (h1 : 1 ≤ i) (h2 : i < (searchLayout dir w h nodes extra conn).L)
    (h3 : j = 0 ∨ j = (searchLayout dir w h nodes extra conn).A) :
    (searchLayout dir w h nodes extra conn).obs (tileAt dir i j) = true := by
  cases dir <;>
    simp only [searchLayout, addObstructions, Search.L, Search.A, lane, pos, tileAt] at * <;>
    simp <;> omega

/-- The largest lane of a layout. -/
def lanes : Dir → Nat → Nat → Nat
  | .horizontal, w, _ => w
  | .vertical, _, h => h

/-- The largest position in a lane. -/
def positions : Dir → Nat → Nat → Nat
  | .horizontal, _, h => h
  | .vertical, w, _ => w

/-- What the search leaves behind. -/
theorem cuts_spec {q : Queue Tile Nat} (hq : q.Faithful) (timeout : Nat → Bool) (dir : Dir) (w h : Nat) (nodes : List Node)
    (extra : Tile → Bool) (conn : Tile → Tile → Bool) :
    ∃ S fs del, cuts q timeout dir w h nodes extra conn = some (S, del) ∧
      LoopInv (searchLayout dir w h nodes extra conn) S fs del ∧
      ((∀ j, timeout j = false) → ¬ Reach S.succs (0, 0) S.target) := by
  obtain ⟨S, fs, del, h1, h2, h3, -⟩ := cutLoop_spec hq timeout (searchLayout dir w h nodes extra conn)
    (by cases dir <;> simp [searchLayout, addObstructions, Search.L, lane])
    (by cases dir <;> simp [searchLayout, addObstructions, Search.A, pos])
    (searchLayout_border dir w h nodes extra conn) ((w + 3) * (h + 3) + 1)
    (by simp [searchLayout, addObstructions]) (w + h + 3) 0 _ [] [] (searchLayout_start dir w h nodes extra conn)
    (by cases dir <;> simp [searchLayout, addObstructions, Search.A, pos] <;> omega) (by simp)
  exact ⟨S, fs, del, h1, h2, h3⟩

/-- The facts about the deleted tiles that the theorems below use. -/
theorem cuts_facts {q : Queue Tile Nat} (hq : q.Faithful) {timeout : Nat → Bool} {dir : Dir} {w h : Nat} {nodes : List Node}
    {extra : Tile → Bool} {conn : Tile → Tile → Bool} {S : Search} {del : List Tile}
    (hc : cuts q timeout dir w h nodes extra conn = some (S, del)) :
    S.dir = dir ∧ S.X = w + 2 ∧ S.Y = h + 2 ∧ ∃ fs : List (Nat → Nat),
      del = fs.flatMap (cutTiles dir (lanes dir w h + 1)) ∧
      Cuts dir (lanes dir w h + 1) (positions dir w h)
        (fun c => (searchLayout dir w h nodes extra conn).obs (c.1 + 1, c.2 + 1) = false)
        (fun u v => conn (u.1 + 1, u.2 + 1) (v.1 + 1, v.2 + 1) = false) fs := by
  obtain ⟨S', fs, del', h1, h2, -⟩ := cuts_spec hq timeout dir w h nodes extra conn
  rw [hc] at h1
  simp only [Option.some.injEq, Prod.mk.injEq] at h1
  obtain ⟨rfl, rfl⟩ := h1
  have e1 : (searchLayout dir w h nodes extra conn).dir = dir := rfl
  have e2 : (searchLayout dir w h nodes extra conn).L - 1 = lanes dir w h + 1 := by
    cases dir <;> simp [searchLayout, addObstructions, Search.L, lane, lanes]
  have e3 : (searchLayout dir w h nodes extra conn).A - 2 = positions dir w h := by
    cases dir <;> simp [searchLayout, addObstructions, Search.A, pos, positions]
  refine ⟨h2.dir, h2.X, h2.Y, fs, ?_, ?_⟩
  · rw [h2.del, e1, e2]
  · have := h2.cuts
    rwa [e1, e2, e3] at this

theorem Cuts.lane_ne {d : Dir} {n h : Nat} {free : Tile → Prop} {link : Tile → Tile → Prop} {fs : List (Nat → Nat)}
    (hc : Cuts d n h free link fs) {a : Nat}
    (ha : a < n) : fs.Pairwise (fun g g' => g a ≠ g' a) := hc.disj.imp fun hg => hg a ha

theorem before_eq {d : Dir} {n : Nat} {fs : List (Nat → Nat)} {c : Tile} (ha : lane d c < n) :
    deletedBefore d (fs.flatMap (cutTiles d n)) c = fs.countP fun g => decide (g (lane d c) < pos d c) := by
  unfold deletedBefore
  exact cuts_filter d n (lane d c) ha (fun b => decide (b < pos d c)) fs

theorem in_eq {d : Dir} {n : Nat} {fs : List (Nat → Nat)} {a : Nat} (ha : a < n) :
    deletedIn d (fs.flatMap (cutTiles d n)) a = fs.length := by
  unfold deletedIn
  have := cuts_filter d n a ha (fun _ => true) fs
  simpa using this

theorem cutTiles_nodup (d : Dir) (n : Nat) (g : Nat → Nat) : (cutTiles d n g).Nodup := by
  unfold cutTiles
  refine List.Nodup.map_on ?_ List.nodup_range
  intro x _ y _ h
  exact (mk_inj.1 h).1

/-! ## Theorems -/

/-- C95. The search for cuts always ends – whenever the time limit is reached –, and if it is not reached, no cut is left. -/
theorem C95_ends (q : Queue Tile Nat) (hq : q.Faithful) (timeout : Nat → Bool) (dir : Dir) (w h : Nat) (nodes : List Node)
    (extra : Tile → Bool) (conn : Tile → Tile → Bool) :
    ∃ S del, cuts q timeout dir w h nodes extra conn = some (S, del) ∧
      ((∀ j, timeout j = false) → ¬ Reach S.succs (0, 0) S.target) := by
  obtain ⟨S, fs, del, h1, h2, h3⟩ := cuts_spec hq timeout dir w h nodes extra conn
  exact ⟨S, del, h1, h3⟩

/-- C95. The deleted tiles lie in the layout, none is listed twice, and all lanes lose the same number of tiles. -/
theorem C95_cuts (q : Queue Tile Nat) (hq : q.Faithful) (timeout : Nat → Bool) (dir : Dir) (w h : Nat) (nodes : List Node)
    (extra : Tile → Bool) (conn : Tile → Tile → Bool) (S : Search) (del : List Tile)
    (hc : cuts q timeout dir w h nodes extra conn = some (S, del)) :
    (∀ c ∈ del, c.1 ≤ w ∧ c.2 ≤ h) ∧ del.Nodup ∧ ∃ k, ∀ a ≤ lanes dir w h, deletedIn dir del a = k := by
  obtain ⟨-, -, -, fs, rfl, hf⟩ := cuts_facts hq hc
  refine ⟨?_, ?_, fs.length, fun a ha => in_eq (by omega)⟩
  · intro c hm
    obtain ⟨h1, g, hg, h2⟩ := mem_cuts.1 hm
    have h3 := hf.bound g hg _ h1
    rw [h2] at h3
    cases dir <;> simp only [lane, pos, lanes, positions] at * <;> omega
  · rw [List.nodup_flatMap]
    refine ⟨fun g _ => cutTiles_nodup _ _ g, hf.disj.imp ?_⟩
    intro g g' hd x hx hy
    simp only [cutTiles, List.mem_map, List.mem_range] at hx hy
    obtain ⟨i, hi, rfl⟩ := hx
    obtain ⟨j, hj, he⟩ := hy
    rw [mk_inj] at he
    obtain ⟨rfl, he⟩ := he
    exact hd _ hi he.symm

/-- C95. No tile with an input, an output, a gate, a fan-out or a crossing is deleted, and no wire that continues straight
along the direction of the search. -/
theorem C95_protected (q : Queue Tile Nat) (hq : q.Faithful) (timeout : Nat → Bool) (dir : Dir) (w h : Nat) (nodes : List Node)
    (extra : Tile → Bool) (conn : Tile → Tile → Bool) (S : Search) (del : List Tile)
    (hc : cuts q timeout dir w h nodes extra conn = some (S, del)) (n : Node) (hn : n ∈ nodes)
    (hp : (n.layer = 0 ∧ (n.isPi = true ∨ n.isPo = true)) ∨ n.incoming = 2 ∨
      (n.incoming = 1 ∧ (n.isWire = false ∨ n.fanouts ≠ 1 ∨ n.layer ≠ 0 ∨
        (dir = .horizontal ∧ n.fromWest = true ∧ n.toEast = true) ∨
        (dir = .vertical ∧ n.fromNorth = true ∧ n.toSouth = true)))) : n.tile ∉ del := by
  obtain ⟨-, -, -, fs, rfl, hf⟩ := cuts_facts hq hc
  intro hm
  obtain ⟨h1, g, hg, h2⟩ := mem_cuts.1 hm
  have h3 := hf.free g hg _ h1
  rw [h2, mk_eta] at h3
  have h4 : n.obstructs dir = true := by
    unfold Node.obstructs Node.solid
    rcases hp with ⟨h, h' | h'⟩ | h | ⟨h, h' | h' | h' | ⟨h', hx, hy⟩ | ⟨h', hx, hy⟩⟩ <;> simp_all
  have h5 : (nodes.any fun n' => n'.obstructs dir && ((n.tile.1 + 1, n.tile.2 + 1) : Tile) == (n'.tile.1 + 1, n'.tile.2 + 1)) = true := by
    rw [List.any_eq_true]
    exact ⟨n, hn, by simp [h4]⟩
  simp only [searchLayout, addObstructions, h5] at h3
  simp at h3

/-- C95. Every remaining tile moves up by the number of deleted tiles before it; the subtraction never wraps around. -/
theorem C95_moved (q : Queue Tile Nat) (hq : q.Faithful) (timeout : Nat → Bool) (dir : Dir) (w h : Nat) (nodes : List Node)
    (extra : Tile → Bool) (conn : Tile → Tile → Bool) (S : Search) (del : List Tile)
    (hc : cuts q timeout dir w h nodes extra conn = some (S, del)) (c : Tile) (hr : c.1 ≤ w ∧ c.2 ≤ h) :
    ∃ c', S.moved del c = some c' ∧ lane dir c' = lane dir c ∧ pos dir c' + deletedBefore dir del c = pos dir c := by
  obtain ⟨h1, h2, h3, fs, h4, hf⟩ := cuts_facts hq hc
  have hl : lane dir c < lanes dir w h + 1 := by cases dir <;> simp only [lane, lanes] <;> omega
  have he : deletedBefore dir del c ≤ pos dir c := by
    rw [h4, before_eq hl]
    exact count_le _ fs (hf.lane_ne hl) _
  unfold Search.moved
  rw [offset_eq S del c (by omega), h1]
  cases dir <;> simp only [newCoord, lane, pos] at * <;> rw [if_pos he] <;> exact ⟨_, rfl, rfl, by simp only; omega⟩

/-- C95. No two remaining tiles move to the same place, and those of a lane keep their order. -/
theorem C95_injective (q : Queue Tile Nat) (hq : q.Faithful) (timeout : Nat → Bool) (dir : Dir) (w h : Nat) (nodes : List Node)
    (extra : Tile → Bool) (conn : Tile → Tile → Bool) (S : Search) (del : List Tile)
    (hc : cuts q timeout dir w h nodes extra conn = some (S, del)) (c d c' d' : Tile) (hr : Remains w h del c)
    (hs : Remains w h del d) (hc' : S.moved del c = some c') (hd' : S.moved del d = some d') :
    (c' = d' → c = d) ∧ (lane dir c = lane dir d → pos dir c < pos dir d → pos dir c' < pos dir d') := by
  obtain ⟨c2, e1, e2, e3⟩ := C95_moved q hq timeout dir w h nodes extra conn S del hc c ⟨hr.1, hr.2.1⟩
  obtain ⟨d2, i1, i2, i3⟩ := C95_moved q hq timeout dir w h nodes extra conn S del hc d ⟨hs.1, hs.2.1⟩
  rw [hc'] at e1; rw [hd'] at i1
  simp only [Option.some.injEq] at e1 i1
  subst e1; subst i1
  obtain ⟨h1, h2, h3, fs, h4, hf⟩ := cuts_facts hq hc
  have hl : lane dir c < lanes dir w h + 1 := by
    obtain ⟨h1, h2, -⟩ := hr
    cases dir <;> simp only [lane, lanes] <;> omega
  have hl2 : lane dir d < lanes dir w h + 1 := by
    obtain ⟨h1, h2, -⟩ := hs
    cases dir <;> simp only [lane, lanes] <;> omega
  have key : ∀ a b : Tile, lane dir a < lanes dir w h + 1 → a ∉ del → lane dir a = lane dir b → pos dir a < pos dir b →
      deletedBefore dir del b + pos dir a + 1 ≤ deletedBefore dir del a + pos dir b := by
    intro a b hla hna hab hlt
    rw [h4, before_eq hla, before_eq (by omega), ← hab]
    have hn : ¬ ∃ g ∈ fs, g (lane dir a) = pos dir a := by
      intro hh
      exact hna (by rw [h4]; exact mem_cuts.2 ⟨hla, hh⟩)
    have := count_mono (lane dir a) fs (hf.lane_ne hla) (pos dir a) hn (pos dir b - pos dir a - 1)
    rw [show pos dir a + 1 + (pos dir b - pos dir a - 1) = pos dir b by omega] at this
    omega
  constructor
  · intro he
    rw [he] at e2 e3
    have hlane : lane dir c = lane dir d := by omega
    rcases Nat.lt_trichotomy (pos dir c) (pos dir d) with hlt | heq | hlt
    · have := key c d hl hr.2.2 hlane hlt
      omega
    · rw [← mk_eta dir c, ← mk_eta dir d, hlane, heq]
    · have := key d c hl2 hs.2.2 hlane.symm hlt
      omega
  · intro hlane hlt
    have := key c d hl hr.2.2 hlane hlt
    omega

/-- C95. The remaining tiles fill the smaller layout: they move to its tiles only, and every one of them is taken. -/
theorem C95_fill (q : Queue Tile Nat) (hq : q.Faithful) (timeout : Nat → Bool) (dir : Dir) (w h : Nat) (nodes : List Node)
    (extra : Tile → Bool) (conn : Tile → Tile → Bool) (S : Search) (del : List Tile)
    (hc : cuts q timeout dir w h nodes extra conn = some (S, del)) (c' : Tile) :
    (∃ c, Remains w h del c ∧ S.moved del c = some c') ↔
      lane dir c' ≤ lanes dir w h ∧ pos dir c' + deletedIn dir del (lane dir c') ≤ positions dir w h := by
  obtain ⟨h1, h2, h3, fs, h4, hf⟩ := cuts_facts hq hc
  have hcount : ∀ a, a < lanes dir w h + 1 →
      fs.countP (fun g => decide (g a < positions dir w h + 1)) = fs.length := by
    intro a ha
    rw [List.countP_eq_length]
    intro g hg
    have := hf.bound g hg a ha
    simp; omega
  constructor
  · rintro ⟨c, ⟨r1, r2, r3⟩, hm⟩
    obtain ⟨c2, e1, e2, e3⟩ := C95_moved q hq timeout dir w h nodes extra conn S del hc c ⟨r1, r2⟩
    rw [hm] at e1
    simp only [Option.some.injEq] at e1
    subst e1
    have hl : lane dir c < lanes dir w h + 1 := by cases dir <;> simp only [lane, lanes] <;> omega
    have hp : pos dir c ≤ positions dir w h := by cases dir <;> simp only [pos, positions] <;> omega
    refine ⟨by omega, ?_⟩
    rw [e2]
    have hn : ¬ ∃ g ∈ fs, g (lane dir c) = pos dir c := by
      intro hh
      exact r3 (by rw [h4]; exact mem_cuts.2 ⟨hl, hh⟩)
    have h5 := count_mono (lane dir c) fs (hf.lane_ne hl) (pos dir c) hn (positions dir w h - pos dir c)
    rw [show pos dir c + 1 + (positions dir w h - pos dir c) = positions dir w h + 1 by omega, hcount _ hl] at h5
    rw [h4, in_eq hl]
    rw [h4, before_eq hl] at e3
    omega
  · rintro ⟨hl, hp⟩
    have hl' : lane dir c' < lanes dir w h + 1 := by omega
    rw [h4, in_eq hl'] at hp
    obtain ⟨b, b1, b2, b3⟩ := count_onto (lane dir c') fs (hf.lane_ne hl') (positions dir w h + 1) (pos dir c')
      (by rw [hcount _ hl']; omega)
    have hin : (tileAt dir (lane dir c') b).1 ≤ w ∧ (tileAt dir (lane dir c') b).2 ≤ h := by
      cases dir <;> simp only [tileAt, lane, lanes, positions] at * <;> omega
    refine ⟨tileAt dir (lane dir c') b, ⟨hin.1, hin.2, ?_⟩, ?_⟩
    · rw [h4, mem_cuts, lane_mk, pos_mk]
      exact fun hh => b2 hh.2
    · obtain ⟨c2, e1, e2, e3⟩ := C95_moved q hq timeout dir w h nodes extra conn S del hc _ hin
      rw [e1]
      rw [lane_mk] at e2
      rw [h4, before_eq (by rw [lane_mk]; exact hl'), lane_mk, pos_mk] at e3
      have : pos dir c2 = pos dir c' := by omega
      rw [← mk_eta dir c2, e2, this, mk_eta]

/-- C95. Remaining tiles that are neighbours remain neighbours, in the same direction: no cut shears a connection. -/
theorem C95_neighbours (q : Queue Tile Nat) (hq : q.Faithful) (timeout : Nat → Bool) (dir : Dir) (w h : Nat)
    (nodes : List Node) (extra : Tile → Bool) (conn : Tile → Tile → Bool) (S : Search) (del : List Tile)
    (hc : cuts q timeout dir w h nodes extra conn = some (S, del)) (x y : Nat) :
    (Remains w h del (x, y) → Remains w h del (x + 1, y) →
      ∃ x' y', S.moved del (x, y) = some (x', y') ∧ S.moved del (x + 1, y) = some (x' + 1, y')) ∧
    (Remains w h del (x, y) → Remains w h del (x, y + 1) →
      ∃ x' y', S.moved del (x, y) = some (x', y') ∧ S.moved del (x, y + 1) = some (x', y' + 1)) := by
  obtain ⟨h1, h2, h3, fs, h4, hf⟩ := cuts_facts hq hc
  -- the next lane
  have across : ∀ c d : Tile, Remains w h del c → Remains w h del d → lane dir d = lane dir c + 1 → pos dir d = pos dir c →
      deletedBefore dir del d = deletedBefore dir del c := by
    intro c d hr hs hl hp
    have l1 : lane dir d < lanes dir w h + 1 := by
      obtain ⟨r1, r2, -⟩ := hs
      cases dir <;> simp only [lane, lanes] <;> omega
    rw [h4, before_eq l1, before_eq (by omega), hl, hp]
    apply List.countP_congr
    intro g hg
    have hn := hf.near g hg (lane dir c) (by omega)
    have n1 : g (lane dir c) ≠ pos dir c := fun hh => hr.2.2 (by rw [h4]; exact mem_cuts.2 ⟨by omega, g, hg, hh⟩)
    have n2 : g (lane dir c + 1) ≠ pos dir c := fun hh => hs.2.2 (by
      rw [h4]; exact mem_cuts.2 ⟨l1, g, hg, by rw [hl, hp]; exact hh⟩)
    simp only [decide_eq_true_eq]
    unfold Near at hn
    omega
  -- the next position
  have along : ∀ c d : Tile, Remains w h del c → Remains w h del d → lane dir d = lane dir c → pos dir d = pos dir c + 1 →
      deletedBefore dir del d = deletedBefore dir del c := by
    intro c d hr hs hl hp
    have l1 : lane dir c < lanes dir w h + 1 := by
      obtain ⟨r1, r2, -⟩ := hr
      cases dir <;> simp only [lane, lanes] <;> omega
    rw [h4, before_eq l1, before_eq (by omega), hl, hp, count_succ _ _ fs (hf.lane_ne l1), if_neg]
    · rfl
    · intro hh
      exact hr.2.2 (by rw [h4]; exact mem_cuts.2 ⟨l1, hh⟩)
  have move : ∀ c, Remains w h del c → ∃ c', S.moved del c = some c' ∧ lane dir c' = lane dir c ∧
      pos dir c' + deletedBefore dir del c = pos dir c := fun c hr =>
    C95_moved q hq timeout dir w h nodes extra conn S del hc c ⟨hr.1, hr.2.1⟩
  constructor <;> intro hr hs <;> obtain ⟨⟨x1, y1⟩, e1, e2, e3⟩ := move _ hr <;> obtain ⟨⟨x2, y2⟩, i1, i2, i3⟩ := move _ hs
  · refine ⟨x1, y1, e1, ?_⟩
    rw [i1]
    cases dir
    · have := across _ _ hr hs rfl rfl
      simp only [lane, pos, Option.some.injEq, Prod.mk.injEq] at *; omega
    · have := along _ _ hr hs rfl rfl
      simp only [lane, pos, Option.some.injEq, Prod.mk.injEq] at *; omega
  · refine ⟨x1, y1, e1, ?_⟩
    rw [i1]
    cases dir
    · have := along _ _ hr hs rfl rfl
      simp only [lane, pos, Option.some.injEq, Prod.mk.injEq] at *; omega
    · have := across _ _ hr hs rfl rfl
      simp only [lane, pos, Option.some.injEq, Prod.mk.injEq] at *; omega

/-! ## An example -/

/-- An input at (0, 0), a wire to the south, a wire that turns to the east, and an output at (1, 2). -/
def exNodes : List Node := [
  ⟨(0, 0), 0, true, false, true, 1, 0, false, false, false, true, 0⟩,
  ⟨(0, 1), 0, false, false, true, 1, 1, false, true, false, true, 0⟩,
  ⟨(0, 2), 0, false, false, true, 1, 1, false, true, true, false, 0⟩,
  ⟨(1, 2), 0, false, true, true, 0, 1, true, false, false, false, 0⟩]

/-- The row in the middle is deleted, and the tiles below move up. -/
example : (cuts (stdQueue Tile Nat) (fun _ => false) .horizontal 1 2 exNodes (fun _ => false) (fun _ _ => false)).map
    (fun r => (r.2, r.1.moved r.2 (0, 2), r.1.moved r.2 (1, 2))) =
    some ([(0, 1), (1, 1)], some (0, 1), some (1, 1)) := by decide +kernel

/-- The queue of the library meets the hypothesis. -/
example : (stdQueue Tile Nat).Faithful := stdQueue_faithful

end Verif.Wiring
