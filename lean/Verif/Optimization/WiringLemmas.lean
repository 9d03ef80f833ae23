import Verif.Optimization.Wiring
import Verif.Paths.Props
import Mathlib.Data.List.Count
import Mathlib.Data.List.Range
import Mathlib.Tactic.Linarith

/-!
# Lemmas on the cuts of wiring reduction
-/
namespace Verif.Wiring

open Verif.Paths

theorem lane_mk (d a b) : lane d (tileAt d a b) = a := by cases d <;> rfl
theorem pos_mk (d a b) : pos d (tileAt d a b) = b := by cases d <;> rfl
theorem mk_eta (d : Dir) (c : Tile) : tileAt d (lane d c) (pos d c) = c := by cases d <;> rfl
theorem mk_inj {d : Dir} {a b a' b' : Nat} : tileAt d a b = tileAt d a' b' ↔ a = a' ∧ b = b' := by
  cases d <;> simp [tileAt]; exact and_comm

/-- Two positions that a cut can take in neighbouring lanes. -/
def Near (x y : Nat) : Prop := x ≤ y + 1 ∧ y ≤ x + 1

/-- The last lane. -/
def Search.L (S : Search) : Nat := lane S.dir (S.X, S.Y)
/-- The last position. -/
def Search.A (S : Search) : Nat := pos S.dir (S.X, S.Y)

theorem step {S : Search} (hL : 2 ≤ S.L) {c d : Tile} (hc : lane S.dir c ≤ S.L) (h : d ∈ S.succs c) :
    (S.obs d = false ∨ d = S.target) ∧ S.conn c d = false ∧ lane S.dir d ≤ S.L ∧
    ((lane S.dir d = lane S.dir c ∧ (lane S.dir c = 0 ∨ lane S.dir c = S.L)) ∨
     (lane S.dir d = lane S.dir c + 1 ∧ lane S.dir c < S.L ∧ Near (pos S.dir c) (pos S.dir d))) := by
  obtain ⟨dir, X, Y, obs, conn⟩ := S
  obtain ⟨x, y⟩ := c
  obtain ⟨x', y'⟩ := d
  unfold Search.succs at h
  rw [List.mem_filter] at h
  obtain ⟨h, hf⟩ := h
  refine ⟨by simp at hf; tauto, by simp at hf; tauto, ?_⟩
  clear hf
  cases dir <;>
    simp only [Search.adjacent, Search.L, lane, pos, Near, List.mem_filter, decide_eq_true_eq, ne_eq] at * <;>
    obtain ⟨h, hne⟩ := h <;>
    (split_ifs at h <;>
      simp only [List.mem_cons, List.not_mem_nil, or_false, east, north, south, west] at h <;>
      grind)

theorem step_bounds {S : Search} {c d : Tile} (hc : c.1 ≤ S.X ∧ c.2 ≤ S.Y) (h : d ∈ S.succs c) : d.1 ≤ S.X ∧ d.2 ≤ S.Y := by
  obtain ⟨dir, X, Y, obs, conn⟩ := S
  obtain ⟨x, y⟩ := c
  obtain ⟨x', y'⟩ := d
  unfold Search.succs at h
  rw [List.mem_filter] at h
  obtain ⟨h, -⟩ := h
  cases dir <;>
    simp only [Search.adjacent, List.mem_filter, decide_eq_true_eq, ne_eq] at * <;>
    obtain ⟨h, hne⟩ := h <;>
    (split_ifs at h <;>
      simp only [List.mem_cons, List.not_mem_nil, or_false, east, north, south, west] at h <;>
      grind)

theorem inner_iff (S : Search) (c : Tile) : S.inner c = true ↔ lane S.dir c ≠ 0 ∧ lane S.dir c ≠ S.L := by
  obtain ⟨dir, X, Y, obs, conn⟩ := S
  cases dir <;> simp [Search.inner, lane, Search.L]

theorem path_lane (S : Search) (hL : 2 ≤ S.L) : ∀ (p : List Tile) (c : Tile), (c :: p).IsChain (fun u w => w ∈ S.succs u) →
    (c :: p).getLast? = some S.target → 1 ≤ lane S.dir c → lane S.dir c ≤ S.L → ∃ f : Nat → Nat,
    (c :: p).filter S.inner = (List.range' (lane S.dir c) (S.L - lane S.dir c)).map (fun i => tileAt S.dir i (f i)) ∧
    f (lane S.dir c) = pos S.dir c ∧
    (∀ i, lane S.dir c ≤ i → i + 1 < S.L → Near (f i) (f (i + 1)) ∧
      S.conn (tileAt S.dir i (f i)) (tileAt S.dir (i + 1) (f (i + 1))) = false) ∧
    (∀ i, lane S.dir c < i → i < S.L → S.obs (tileAt S.dir i (f i)) = false)
  | [], c, _, hl, h1, h2 => by
    simp at hl
    have : lane S.dir c = S.L := by rw [hl]; rfl
    refine ⟨fun _ => pos S.dir c, ?_, rfl, by omega, by omega⟩
    have hi : ¬ S.inner c = true := by rw [inner_iff]; omega
    simp [hi, this]
  | d :: p, c, hc, hl, h1, h2 => by
    rw [List.isChain_cons_cons] at hc
    obtain ⟨s1, s0, s2, s3⟩ := step hL h2 hc.1
    have hl' : (d :: p).getLast? = some S.target := by rw [← hl]; simp
    obtain ⟨f, f1, f2, f3, f4⟩ := path_lane S hL p d hc.2 hl' (by omega) s2
    rcases s3 with ⟨e, e'⟩ | ⟨e, e', e''⟩
    · have hcL : lane S.dir c = S.L := by omega
      refine ⟨fun _ => pos S.dir c, ?_, rfl, by omega, by omega⟩
      have hi : ¬ S.inner c = true := by rw [inner_iff]; omega
      rw [List.filter_cons_of_neg hi, f1]
      simp [e, hcL]
    · have hi : S.inner c = true := by rw [inner_iff]; omega
      refine ⟨fun i => if i = lane S.dir c then pos S.dir c else f i, ?_, by simp, ?_, ?_⟩
      · rw [List.filter_cons_of_pos hi, f1]
        have hn : S.L - lane S.dir c = (S.L - lane S.dir d) + 1 := by omega
        rw [hn, List.range'_succ, List.map_cons, e]
        simp only [if_true, mk_eta]
        congr 1
        apply List.map_congr_left
        intro i hi'
        rw [List.mem_range'_1] at hi'
        rw [if_neg (by omega)]
      · intro i hi1 hi2
        dsimp only
        rw [if_neg (show ¬ i + 1 = lane S.dir c by omega)]
        by_cases hic : i = lane S.dir c
        · rw [if_pos hic, hic, ← e, f2, mk_eta, mk_eta]; exact ⟨e'', s0⟩
        · rw [if_neg hic]; exact f3 i (by omega) hi2
      · intro i hi1 hi2
        dsimp only
        rw [if_neg (by omega)]
        by_cases hid : i = lane S.dir d
        · rw [hid, f2, mk_eta]
          rcases s1 with s1 | s1
          · exact s1
          · exfalso
            have : lane S.dir d = S.L := by rw [s1]; rfl
            omega
        · exact f4 i (by omega) hi2

theorem path_cut (S : Search) (hL : 2 ≤ S.L) : ∀ (p : List Tile) (c : Tile), (c :: p).IsChain (fun u w => w ∈ S.succs u) →
    (c :: p).getLast? = some S.target → lane S.dir c = 0 → ∃ f : Nat → Nat,
    (c :: p).filter S.inner = (List.range' 1 (S.L - 1)).map (fun i => tileAt S.dir i (f i)) ∧
    (∀ i, 1 ≤ i → i + 1 < S.L → Near (f i) (f (i + 1)) ∧
      S.conn (tileAt S.dir i (f i)) (tileAt S.dir (i + 1) (f (i + 1))) = false) ∧
    (∀ i, 1 ≤ i → i < S.L → S.obs (tileAt S.dir i (f i)) = false)
  | [], c, _, hl, h0 => by
    simp at hl
    have : lane S.dir c = S.L := by rw [hl]; rfl
    omega
  | d :: p, c, hc, hl, h0 => by
    rw [List.isChain_cons_cons] at hc
    obtain ⟨s1, s0, s2, s3⟩ := step hL (by omega) hc.1
    have hl' : (d :: p).getLast? = some S.target := by rw [← hl]; simp
    have hi : ¬ S.inner c = true := by rw [inner_iff]; omega
    rw [List.filter_cons_of_neg hi]
    rcases s3 with ⟨e, e'⟩ | ⟨e, e', e''⟩
    · exact path_cut S hL p d hc.2 hl' (by omega)
    · obtain ⟨f, f1, f2, f3, f4⟩ := path_lane S hL p d hc.2 hl' (by omega) s2
      have hd1 : lane S.dir d = 1 := by omega
      rw [hd1] at f1 f2 f3 f4
      refine ⟨f, f1, f3, ?_⟩
      intro i h1 h2
      by_cases hi1 : i = 1
      · have hd : tileAt S.dir 1 (pos S.dir d) = d := by
          have := mk_eta S.dir d
          rwa [hd1] at this
        rw [hi1, f2, hd]
        rcases s1 with s1 | s1
        · exact s1
        · exfalso
          have : lane S.dir d = S.L := by rw [s1]; rfl
          omega
      · exact f4 i (by omega) h2

/-! ## The list of deleted tiles -/

theorem updateToDelete_eq : ∀ (p : List Tile) (S : Search) (del : List Tile), updateToDelete p S del =
    ({ S with obs := fun d => S.obs d || decide (d ∈ p.filter S.inner) },
      del ++ (p.filter S.inner).map fun c => (c.1 - 1, c.2 - 1))
  | [], S, del => by simp [updateToDelete]
  | c :: p, S, del => by
    unfold updateToDelete
    by_cases hi : S.inner c = true
    · rw [if_pos hi, updateToDelete_eq p, List.filter_cons_of_pos hi]
      have : ∀ d, Search.inner { S with obs := fun d => S.obs d || d == c } d = S.inner d := fun d => rfl
      simp only [List.map_cons, List.append_assoc, List.singleton_append, Prod.mk.injEq, Search.mk.injEq, true_and, and_true]
      constructor
      · funext d
        rw [show (Search.inner { S with obs := fun d => S.obs d || d == c }) = S.inner from rfl]
        by_cases hd : d = c
        · simp [hd]
        · have : (d == c) = false := by simpa using hd
          simp [hd, this]
      · rfl
    · rw [if_neg hi, updateToDelete_eq p, List.filter_cons_of_neg hi]

/-- The tiles of a cut: one position for each of `n` lanes. -/
def cutTiles (d : Dir) (n : Nat) (g : Nat → Nat) : List Tile := (List.range n).map fun i => tileAt d i (g i)

/-- What the list of deleted tiles looks like. -/
structure Cuts (d : Dir) (n h : Nat) (free : Tile → Prop) (link : Tile → Tile → Prop) (fs : List (Nat → Nat)) : Prop where
  link : ∀ g ∈ fs, ∀ i, i + 1 < n → link (tileAt d i (g i)) (tileAt d (i + 1) (g (i + 1)))
  near : ∀ g ∈ fs, ∀ i, i + 1 < n → Near (g i) (g (i + 1))
  bound : ∀ g ∈ fs, ∀ i, i < n → g i ≤ h
  free : ∀ g ∈ fs, ∀ i, i < n → free (tileAt d i (g i))
  disj : fs.Pairwise fun g g' => ∀ i, i < n → g i ≠ g' i

theorem Cuts.length_le {d : Dir} {n h : Nat} {free : Tile → Prop} {link : Tile → Tile → Prop} {fs : List (Nat → Nat)}
    (hc : Cuts d n h free link fs)
    (hn : 0 < n) : fs.length ≤ h + 1 := by
  have h1 : (fs.map fun g => g 0).Nodup := by
    rw [List.Nodup, List.pairwise_map]
    exact hc.disj.imp fun hg => hg 0 hn
  have h2 : (fs.map fun g => g 0) ⊆ List.range (h + 1) := by
    intro x hx
    obtain ⟨g, hg, rfl⟩ := List.mem_map.1 hx
    have := hc.bound g hg 0 hn
    simp; omega
  have := (List.subperm_of_subset h1 h2).length_le
  simpa using this

/-- The state of the search after the cuts `fs`. -/
structure LoopInv (S0 S : Search) (fs : List (Nat → Nat)) (del : List Tile) : Prop where
  dir : S.dir = S0.dir
  X : S.X = S0.X
  Y : S.Y = S0.Y
  conn : S.conn = S0.conn
  obs : ∀ c, S.obs c = true ↔ S0.obs c = true ∨ ∃ g ∈ fs, ∃ i, i < S0.L - 1 ∧ c = tileAt S0.dir (i + 1) (g i + 1)
  del : del = fs.flatMap (cutTiles S0.dir (S0.L - 1))
  cuts : Cuts S0.dir (S0.L - 1) (S0.A - 2) (fun c => S0.obs (c.1 + 1, c.2 + 1) = false)
    (fun u v => S0.conn (u.1 + 1, u.2 + 1) (v.1 + 1, v.2 + 1) = false) fs

theorem shift_mk (d : Dir) (a b : Nat) : ((tileAt d a b).1 + 1, (tileAt d a b).2 + 1) = tileAt d (a + 1) (b + 1) := by cases d <;> rfl
theorem unshift_mk (d : Dir) (a b : Nat) : ((tileAt d a b).1 - 1, (tileAt d a b).2 - 1) = tileAt d (a - 1) (b - 1) := by cases d <;> rfl

theorem range'_one (n : Nat) : List.range' 1 n = (List.range n).map (· + 1) := by
  rw [List.range'_eq_map_range]
  apply List.map_congr_left
  intros; omega

theorem chain_bounds {S : Search} : ∀ (p : List Tile) (c : Tile), (c :: p).IsChain (fun u w => w ∈ S.succs u) →
    c.1 ≤ S.X ∧ c.2 ≤ S.Y → ∀ e ∈ c :: p, e.1 ≤ S.X ∧ e.2 ≤ S.Y
  | [], c, _, h, e, he => by simp at he; subst he; exact h
  | d :: p, c, hc, h, e, he => by
    rw [List.isChain_cons_cons] at hc
    rcases List.mem_cons.1 he with rfl | he
    · exact h
    · exact chain_bounds p d hc.2 (step_bounds h hc.1) e he

/-- One more path. -/
theorem LoopInv.next {S0 S : Search} {fs : List (Nat → Nat)} {del : List Tile} (hv : LoopInv S0 S fs del) (hL : 2 ≤ S0.L)
    (hb : ∀ i j, 1 ≤ i → i < S0.L → j = 0 ∨ j = S0.A → S0.obs (tileAt S0.dir i j) = true)
    {p : List Tile} {c : Tile} (hp : (c :: p).IsChain (fun u w => w ∈ S.succs u)) (hl : (c :: p).getLast? = some S.target)
    (h0 : lane S.dir c = 0) (hin : c.1 ≤ S.X ∧ c.2 ≤ S.Y) :
    ∃ g, LoopInv S0 (updateToDelete (c :: p) S del).1 (fs ++ [g]) (updateToDelete (c :: p) S del).2 := by
  have eL : S.L = S0.L := by unfold Search.L; rw [hv.dir, hv.X, hv.Y]
  obtain ⟨f, f1, f2, f3⟩ := path_cut S (by omega) p c hp hl h0
  rw [eL] at f1 f2 f3
  rw [hv.dir] at f1 f2 f3
  rw [hv.conn] at f2
  have hfree : ∀ i, 1 ≤ i → i < S0.L → S0.obs (tileAt S0.dir i (f i)) = false ∧ 1 ≤ f i ∧ f i < S0.A ∧
      ∀ g ∈ fs, g (i - 1) + 1 ≠ f i := by
    intro i h1 h2
    have h3 := f3 i h1 h2
    have h4 : ¬ (S0.obs (tileAt S0.dir i (f i)) = true ∨ ∃ g ∈ fs, ∃ j, j < S0.L - 1 ∧
        tileAt S0.dir i (f i) = tileAt S0.dir (j + 1) (g j + 1)) := by
      rw [← hv.obs]; simp [h3]
    have h5 : S0.obs (tileAt S0.dir i (f i)) = false := by
      rw [Bool.eq_false_iff]; exact fun hh => h4 (Or.inl hh)
    refine ⟨h5, ?_, ?_, ?_⟩
    · by_contra hh
      have := hb i (f i) h1 h2 (Or.inl (by omega))
      simp [h5] at this
    · have h6 : tileAt S0.dir i (f i) ∈ (c :: p).filter S.inner := by
        rw [f1, List.mem_map]
        exact ⟨i, by rw [List.mem_range'_1]; omega, rfl⟩
      have h7 := chain_bounds p c hp hin _ (List.mem_filter.1 h6).1
      have h8 : f i ≤ S0.A := by
        have e := pos_mk S0.dir i (f i)
        rw [hv.X, hv.Y] at h7
        unfold Search.A
        rw [← e]
        generalize S0.dir = dd at h7 ⊢
        cases dd
        · exact h7.2
        · exact h7.1
      by_contra hh
      have := hb i (f i) h1 h2 (Or.inr (by omega))
      simp [h5] at this
    · intro g hg he
      refine h4 (Or.inr ⟨g, hg, i - 1, by omega, ?_⟩)
      rw [mk_inj]; omega
  rw [updateToDelete_eq, f1]
  refine ⟨fun i => f (i + 1) - 1, hv.dir, hv.X, hv.Y, hv.conn, ?_, ?_, ?_, ?_, ?_, ?_, ?_⟩
  · intro e
    simp only [Bool.or_eq_true, decide_eq_true_eq, hv.obs, List.mem_append, List.mem_singleton, List.mem_map, List.mem_range'_1]
    constructor
    · rintro ((h | ⟨g, hg, i, hi, rfl⟩) | ⟨i, hi, rfl⟩)
      · exact Or.inl h
      · exact Or.inr ⟨g, Or.inl hg, i, hi, rfl⟩
      · refine Or.inr ⟨_, Or.inr rfl, i - 1, by omega, ?_⟩
        have := hfree i (by omega) (by omega)
        rw [mk_inj]
        have e1 : i - 1 + 1 = i := by omega
        simp only [e1, true_and]
        omega
    · rintro (h | ⟨g, hg | rfl, i, hi, rfl⟩)
      · exact Or.inl (Or.inl h)
      · exact Or.inl (Or.inr ⟨g, hg, i, hi, rfl⟩)
      · refine Or.inr ⟨i + 1, by omega, ?_⟩
        have := hfree (i + 1) (by omega) (by omega)
        rw [mk_inj]
        dsimp only
        omega
  · rw [List.flatMap_append, ← hv.del]
    refine congrArg (del ++ ·) ?_
    simp only [List.flatMap_cons, List.flatMap_nil, List.append_nil, cutTiles, range'_one, List.map_map]
    apply List.map_congr_left
    intro i hi
    simp only [Function.comp, unshift_mk]
    simp
  · intro g hg i hi
    rcases List.mem_append.1 hg with hg | hg
    · exact hv.cuts.link g hg i hi
    · simp at hg; subst hg
      have h1 := (f2 (i + 1) (by omega) (by omega)).2
      have h2 := hfree (i + 1) (by omega) (by omega)
      have h3 := hfree (i + 1 + 1) (by omega) (by omega)
      rw [shift_mk, shift_mk]
      dsimp only
      rw [show f (i + 1) - 1 + 1 = f (i + 1) by omega, show f (i + 1 + 1) - 1 + 1 = f (i + 1 + 1) by omega]
      exact h1
  · intro g hg i hi
    rcases List.mem_append.1 hg with hg | hg
    · exact hv.cuts.near g hg i hi
    · simp at hg; subst hg
      have h1 := (f2 (i + 1) (by omega) (by omega)).1
      have h2 := hfree (i + 1) (by omega) (by omega)
      have h3 := hfree (i + 2) (by omega) (by omega)
      unfold Near at *
      dsimp only
      rw [show i + 1 + 1 = i + 2 from rfl] at *
      omega
  · intro g hg i hi
    rcases List.mem_append.1 hg with hg | hg
    · exact hv.cuts.bound g hg i hi
    · simp at hg; subst hg
      have h2 := hfree (i + 1) (by omega) (by omega)
      dsimp only
      omega
  · intro g hg i hi
    rcases List.mem_append.1 hg with hg | hg
    · exact hv.cuts.free g hg i hi
    · simp at hg; subst hg
      have h2 := hfree (i + 1) (by omega) (by omega)
      rw [shift_mk]
      dsimp only
      rw [show f (i + 1) - 1 + 1 = f (i + 1) by omega]
      exact h2.1
  · rw [List.pairwise_append]
    refine ⟨hv.cuts.disj, by simp, ?_⟩
    intro g hg g' hg' i hi
    simp at hg'; subst hg'
    have h2 := hfree (i + 1) (by omega) (by omega)
    have := h2.2.2.2 g hg
    dsimp only
    simp only [Nat.add_sub_cancel] at this
    omega

/-- All tiles of the search layout. -/
def allTiles (X Y : Nat) : List Tile := (List.range (X + 1)).flatMap fun x => (List.range (Y + 1)).map fun y => (x, y)

theorem mem_allTiles (X Y : Nat) (c : Tile) : c ∈ allTiles X Y ↔ c.1 ≤ X ∧ c.2 ≤ Y := by
  obtain ⟨x, y⟩ := c
  simp [allTiles]; omega

theorem length_allTiles (X Y : Nat) : (allTiles X Y).length = (X + 1) * (Y + 1) := by
  simp [allTiles]

theorem reach_bounds {S : Search} {c : Tile} (h : Reach S.succs (0, 0) c) : c.1 ≤ S.X ∧ c.2 ≤ S.Y := by
  induction h with
  | refl => simp
  | tail _ h ih => exact step_bounds ih h

/-- A* on a search layout. -/
theorem getPath_spec {q : Queue Tile Nat} (hq : q.Faithful) (S : Search) (fuel : Nat) (hf : (S.X + 1) * (S.Y + 1) < fuel) :
    ∃ p, getPath q S fuel = some p ∧ ((p = [] ∧ ¬ Reach S.succs (0, 0) S.target) ∨
      (∃ r, p = (0, 0) :: r ∧ p.IsChain (fun u w => w ∈ S.succs u) ∧ p.getLast? = some S.target)) := by
  have := aStar_spec hq (⟨S.succs, fun _ _ => 1, fun v => (S.X - v.1) + (S.Y - v.2), (0, 0), S.target⟩ : Problem Tile Nat)
    (allTiles S.X S.Y) (fun v hv => (mem_allTiles _ _ _).2 (reach_bounds hv)) fuel
  obtain ⟨h1, h2⟩ := this
  obtain ⟨p, hp⟩ := Option.ne_none_iff_exists'.1 (h2 (by rw [length_allTiles]; exact hf))
  refine ⟨p, hp, ?_⟩
  rcases h1 p hp with h | hw
  · exact Or.inl h
  · right
    have hh := hw.head
    cases p with
    | nil => simp at hh
    | cons c r => simp at hh; subst hh; exact ⟨r, rfl, hw.chain, hw.last⟩

theorem cutLoop_spec {q : Queue Tile Nat} (hq : q.Faithful) (timeout : Nat → Bool) (S0 : Search) (hL : 2 ≤ S0.L)
    (hA : 2 ≤ S0.A)
    (hb : ∀ i j, 1 ≤ i → i < S0.L → j = 0 ∨ j = S0.A → S0.obs (tileAt S0.dir i j) = true) (fuel : Nat)
    (hf : (S0.X + 1) * (S0.Y + 1) < fuel) :
    ∀ (bound i : Nat) (S : Search) (fs : List (Nat → Nat)) (del : List Tile), LoopInv S0 S fs del →
    S0.A + 1 ≤ bound + fs.length → fs.length ≤ i →
    ∃ S' fs' del', cutLoop q fuel timeout bound i S del = some (S', del') ∧ LoopInv S0 S' fs' del' ∧
      ((∀ j, timeout j = false) → ¬ Reach S'.succs (0, 0) S'.target) ∧ (fs <+: fs')
  | 0, i, S, fs, del, hv, hbd, hi => by
    have := hv.cuts.length_le (by omega)
    omega
  | bound + 1, i, S, fs, del, hv, hbd, hi => by
    obtain ⟨p, hp, h⟩ := getPath_spec hq S fuel (by rw [hv.X, hv.Y]; exact hf)
    unfold cutLoop
    rw [hp]
    rcases h with ⟨rfl, hr⟩ | ⟨r, rfl, hc, hl⟩
    · exact ⟨S, fs, del, rfl, hv, fun _ => hr, List.prefix_rfl⟩
    · have h0 : lane S.dir ((0, 0) : Tile) = 0 := by cases S.dir <;> rfl
      obtain ⟨g, hg⟩ := hv.next hL hb hc hl h0 (by simp)
      dsimp only
      by_cases ht : timeout i = true
      · rw [if_pos ht]
        refine ⟨_, _, _, rfl, hg, ?_, List.prefix_append _ _⟩
        intro h; rw [h i] at ht; simp at ht
      · rw [if_neg ht]
        obtain ⟨S', fs', del', h1, h2, h3, h4⟩ := cutLoop_spec hq timeout S0 hL hA hb fuel hf bound (i + 1) _ (fs ++ [g]) _ hg
          (by simp; omega) (by simp; omega)
        exact ⟨S', fs', del', h1, h2, h3, (List.prefix_append _ _).trans h4⟩

end Verif.Wiring
