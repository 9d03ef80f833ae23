import Verif.Paths.Heap
import Verif.Layouts.HexProps
import Mathlib.Algebra.Order.Group.Nat

/-!
# A* on layouts: paths are valid (C21) and the search is complete (C22)

The theorems hold for every priority queue that neither loses nor invents entries
(`Queue.Faithful`), in whichever order it delivers them; the heap of libstdc++ is one of them
(`stdQueue_faithful`).
-/
namespace Verif.Paths

open Verif.Layouts Verif.Clocking

/-! ## Specification -/

/-- One step a wire may take from `u` to `v` on its way to `target`: towards a neighbour in whose
ground tile it may be placed, or over that tile if crossings are allowed and the tile holds a
crossable wire (or the target lies above it). Only the target may be obstructed. -/
def Move (l : RLayout) (crossings : Bool) (target u v : Coord) : Prop :=
  ∃ n ∈ l.neighbours u, l.obstructedConn u v = false ∧ (l.obstructed v = false ∨ v = target) ∧
    (v = Cart.below n ∨
      (crossings = true ∧ v = Cart.above l.m (Cart.below n) ∧ v ≠ Cart.below n ∧
        l.obstructed (Cart.below n) = true ∧ Cart.below n ≠ target ∧
        (l.crossable u (Cart.below n) = true ∨ v = target)))

theorem mem_succs (l : RLayout) (cr : Bool) (t u v : Coord) : v ∈ l.succs cr t u ↔ Move l cr t u v := by
  unfold RLayout.succs Move
  rw [List.mem_filterMap]
  refine exists_congr (fun n => and_congr_right (fun _ => ?_))
  unfold RLayout.resolve
  grind

/-- The coordinates of a layout. -/
def box (m : Dim) : List Coord :=
  (List.range (m.X + 1)).flatMap fun x => (List.range (m.Y + 1)).flatMap fun y =>
    (List.range (m.Z + 1)).map fun z => ⟨x, y, z, false⟩

theorem mem_box (m : Dim) (c : Coord) : c ∈ box m ↔ InBounds m c := by
  obtain ⟨x, y, z, d⟩ := c
  simp only [box, List.mem_flatMap, List.mem_range, List.mem_map, InBounds, Coord.mk.injEq]
  constructor
  · rintro ⟨a, ha, b, hb, c, hc, rfl, rfl, rfl, rfl⟩; exact ⟨rfl, by omega, by omega, by omega⟩
  · rintro ⟨rfl, h1, h2, h3⟩
    exact ⟨x, by omega, y, by omega, z, by omega, rfl, rfl, rfl, rfl⟩

theorem length_box (m : Dim) : (box m).length = (m.X + 1) * ((m.Y + 1) * (m.Z + 1)) := by
  simp [box, List.length_flatMap, List.map_const']

theorem neighbours_inBounds (l : RLayout) (hX : l.m.X < 2^31 - 1) (hY : l.m.Y < 2^31 - 1) {c e : Coord}
    (h : InBounds l.m c) (he : e ∈ l.neighbours c) : InBounds l.m e := by
  have h1 : ∀ e ∈ l.tp.adjacent l.m c, InBounds l.m e := by
    intro e he
    cases ht : l.tp with
    | cart => rw [ht] at he; exact (((C07_adjacent_exact l.m c h).1 e).1 he).1
    | hex a => rw [ht] at he; exact ((C09_adjacent_exact a l.m hX hY c e h).1 he).1
  unfold RLayout.neighbours at he
  split at he
  · exact h1 e (List.mem_filter.1 he).1
  · exact h1 e he

theorem Move.inBounds {l : RLayout} (hX : l.m.X < 2^31 - 1) (hY : l.m.Y < 2^31 - 1) {cr : Bool}
    {t u v : Coord} (h : InBounds l.m u) (hm : Move l cr t u v) : InBounds l.m v := by
  obtain ⟨n, hn, -, -, hv⟩ := hm
  have hb := neighbours_inBounds l hX hY h hn
  have h1 : InBounds l.m (Cart.below n) := (C06_moves_in_bounds l.m n hb).2.2.2.2.2.1
  rcases hv with rfl | ⟨-, rfl, -⟩
  · exact h1
  · exact (C06_moves_in_bounds l.m _ h1).2.2.2.2.1

theorem reach_inBounds {l : RLayout} (hX : l.m.X < 2^31 - 1) (hY : l.m.Y < 2^31 - 1) {cr : Bool}
    {t s v : Coord} (h : InBounds l.m s) (hr : Relation.ReflTransGen (Move l cr t) s v) :
    InBounds l.m v := by
  induction hr with
  | refl => exact h
  | tail _ hs ih => exact Move.inBounds hX hY ih hs

theorem reach_iff (l : RLayout) (cr : Bool) (t s v : Coord) :
    Reach (l.succs cr t) s v ↔ Relation.ReflTransGen (Move l cr t) s v := by
  unfold Reach
  have : (fun u v => v ∈ l.succs cr t u) = Move l cr t := by
    funext u v; exact propext (mem_succs l cr t u v)
  rw [this]

theorem above_xy (m : Dim) (c : Coord) : (Cart.above m c).x = c.x ∧ (Cart.above m c).y = c.y := by
  unfold Cart.above; constructor <;> split_ifs <;> rfl

section
variable {K : Type} [LinearOrder K] [AddCommMonoid K]

/-- The search on an arbitrary graph, all results at once. -/
theorem aStar_spec {V : Type} [DecidableEq V] {q : Queue V K} (hq : q.Faithful) (P : Problem V K) (L : List V)
    (hL : ∀ v, Reach P.succs P.source v → v ∈ L) (fuel : Nat) :
    (∀ r, aStar q P fuel = some r → (r = [] ∧ ¬ Reach P.succs P.source P.target) ∨ Walk P P.target r) ∧
    (L.length < fuel → aStar q P fuel ≠ none) := by
  unfold aStar
  obtain ⟨f1, f2, f3, ⟨f, f4⟩, f5⟩ := first_spec hq P
  cases fuel with
  | zero => exact ⟨by simp [loop], fun h => absurd h (by omega)⟩
  | succ n =>
    by_cases ht : P.source = P.target
    · have he : loop q P (n + 1) (n + 1) (St.init q P) = some [P.source] := by
        simp [loop, f4, ht, walkBack]
      rw [he]
      refine ⟨?_, by simp⟩
      intro r hr
      simp at hr; subst hr
      exact Or.inr ⟨by simp, by simp, by simp [ht], by simp⟩
    · have he : loop q P (n + 1) (n + 1) (St.init q P) =
          loop q P (n + 1) n ((St.init q P).next q P P.source) := by
        simp [loop, f4, ht, St.next, St.close]
      rw [he]
      have := loop_spec hq P (n + 1) L hL n _ f1 f2 (by rw [f3]; simp [Ne.symm ht])
      refine ⟨this.1, fun h => this.2 h ?_⟩
      rw [f3]; simp; omega

/-- C21. A path returned by `a_star` starts at the source, ends at the target, visits no coordinate
twice and consists of permitted steps only – for every layout, obstruction, cost and distance function. -/
theorem C21_path_valid (q : Queue Coord K) (hq : q.Faithful) (l : RLayout) (hX : l.m.X < 2^31 - 1)
    (hY : l.m.Y < 2^31 - 1) (crossings : Bool) (cost dist : Coord → Coord → K) (source target : Coord)
    (hs : InBounds l.m source) (fuel : Nat) (p : List Coord)
    (h : aStarLayout q l crossings cost dist source target fuel = some p) (hp : p ≠ []) :
    p.head? = some source ∧ p.getLast? = some target ∧ p.Nodup ∧ p.IsChain (Move l crossings target) := by
  have := (aStar_spec hq (⟨l.succs crossings target, cost, fun v => dist v target, source, target⟩ : Problem Coord K) (box l.m)
    (fun v hv => (mem_box _ _).2 (reach_inBounds hX hY hs ((reach_iff _ _ _ _ _).1 hv))) fuel).1 p h
  rcases this with ⟨h', _⟩ | hw
  · exact absurd h' hp
  · refine ⟨hw.head, hw.last, hw.nodup, hw.chain.imp ?_⟩
    intro a b hab
    exact (mem_succs _ _ _ _ _).1 hab

/-- C22. `a_star` terminates, and it returns no path only if there is none: the result is empty exactly
if the target cannot be reached by permitted steps. -/
theorem C22_complete (q : Queue Coord K) (hq : q.Faithful) (l : RLayout) (hX : l.m.X < 2^31 - 1)
    (hY : l.m.Y < 2^31 - 1) (crossings : Bool) (cost dist : Coord → Coord → K) (source target : Coord)
    (hs : InBounds l.m source) (fuel : Nat) (hf : (l.m.X + 1) * ((l.m.Y + 1) * (l.m.Z + 1)) < fuel) :
    ∃ p, aStarLayout q l crossings cost dist source target fuel = some p ∧
      (p = [] ↔ ¬ Relation.ReflTransGen (Move l crossings target) source target) := by
  have := aStar_spec hq (⟨l.succs crossings target, cost, fun v => dist v target, source, target⟩ : Problem Coord K) (box l.m)
    (fun v hv => (mem_box _ _).2 (reach_inBounds hX hY hs ((reach_iff _ _ _ _ _).1 hv))) fuel
  have h2 := this.2 (by rw [length_box]; exact hf)
  obtain ⟨p, hp⟩ := Option.ne_none_iff_exists'.1 h2
  refine ⟨p, hp, ?_⟩
  rcases this.1 p hp with ⟨h', h''⟩ | hw
  · exact ⟨fun _ hr => h'' ((reach_iff _ _ _ _ _).2 hr), fun _ => h'⟩
  · have hne : p ≠ [] := by intro h; have := hw.head; simp [h] at this
    refine ⟨fun h => absurd h hne, fun h => absurd ?_ h⟩
    exact (reach_iff _ _ _ _ _).1 (chain_reach _ p _ _ hw.chain hw.head hw.last)

end

/-- C21 (what a permitted path means for the layout). Every coordinate of a chain of permitted steps
after the first is in bounds, is unobstructed unless it is the target, and is reached over an
unobstructed connection; without crossings the ground layer is never left. -/
theorem C21_path_meaning (l : RLayout) (hX : l.m.X < 2^31 - 1) (hY : l.m.Y < 2^31 - 1) (crossings : Bool)
    (target u v : Coord) (h : InBounds l.m u) (hm : Move l crossings target u v) :
    InBounds l.m v ∧ (l.obstructed v = false ∨ v = target) ∧ l.obstructedConn u v = false ∧
    (∃ n ∈ l.neighbours u, v.x = n.x ∧ v.y = n.y) ∧
    (l.m.Z ≤ 1 → v.z = 1 → crossings = true ∧ l.obstructed ⟨v.x, v.y, 0, false⟩ = true ∧
      (l.crossable u ⟨v.x, v.y, 0, false⟩ = true ∨ v = target)) := by
  have hb := Move.inBounds hX hY h hm
  obtain ⟨n, hn, h1, h2, h3⟩ := hm
  have hnb := neighbours_inBounds l hX hY h hn
  refine ⟨hb, h2, h1, ⟨n, hn, ?_⟩, ?_⟩
  · have e1 : (Cart.below n).x = n.x ∧ (Cart.below n).y = n.y := by
      unfold Cart.below; split <;> exact ⟨rfl, rfl⟩
    rcases h3 with rfl | ⟨-, rfl, -⟩
    · exact e1
    · rw [← e1.1, ← e1.2]; exact above_xy _ _
  · intro hZ hv1
    have hbz : (Cart.below n).z = 0 := by
      unfold Cart.below; split
      · assumption
      · show n.z - 1 = 0
        have := hnb.2.2.2; omega
    rcases h3 with rfl | ⟨hc, hv, hne, ho, hnt, hx⟩
    · omega
    · have : Cart.below n = ⟨v.x, v.y, 0, false⟩ := by
        have hd : (Cart.below n).d = false := (C06_moves_in_bounds l.m n hnb).2.2.2.2.2.1.1
        have hxy : v.x = (Cart.below n).x ∧ v.y = (Cart.below n).y := by
          rw [hv]; exact above_xy _ _
        rw [hxy.1, hxy.2]
        generalize Cart.below n = b at *
        obtain ⟨bx, by', bz, bd⟩ := b
        simp only at hbz hd
        subst hbz; subst hd; rfl
      rw [this] at ho hx
      exact ⟨hc, ho, hx⟩

/-- A layout with a crossable wire in the middle row and a wall of obstructions. -/
def demoLayout : RLayout where
  tp := .cart
  m := ⟨4, 2, 1⟩
  scheme := some (twoddwaveClocking .cart .four)
  obstructed := fun c => c == ⟨2, 0, 0, false⟩ || c == ⟨2, 1, 0, false⟩ || c == ⟨2, 2, 0, false⟩
  obstructedConn := fun _ _ => false
  crossable := fun _ c => c == ⟨2, 1, 0, false⟩

-- a path exists only by crossing over the wire
example : aStarLayout (stdQueue Coord Nat) demoLayout true unitCost manhattan ⟨0, 0, 0, false⟩ ⟨4, 2, 0, false⟩ 31 =
    some [⟨0, 0, 0, false⟩, ⟨1, 0, 0, false⟩, ⟨1, 1, 0, false⟩, ⟨2, 1, 1, false⟩, ⟨3, 1, 0, false⟩,
      ⟨4, 1, 0, false⟩, ⟨4, 2, 0, false⟩] := by decide +kernel
example : aStarLayout (stdQueue Coord Nat) demoLayout false unitCost manhattan ⟨0, 0, 0, false⟩ ⟨4, 2, 0, false⟩ 31 =
    some [] := by decide +kernel

example : ∃ p, aStarLayout (stdQueue Coord Nat) demoLayout true unitCost manhattan ⟨0, 0, 0, false⟩ ⟨4, 2, 0, false⟩ 31 = some p ∧
    (p = [] ↔ ¬ Relation.ReflTransGen (Move demoLayout true ⟨4, 2, 0, false⟩) ⟨0, 0, 0, false⟩ ⟨4, 2, 0, false⟩) :=
  C22_complete (stdQueue Coord Nat) stdQueue_faithful demoLayout (by decide) (by decide) true unitCost manhattan
    ⟨0, 0, 0, false⟩ ⟨4, 2, 0, false⟩ (by decide) 31 (by decide)

end Verif.Paths
