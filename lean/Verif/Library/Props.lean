import Verif.Library.Model
import Mathlib.Tactic.SplitIfs
import Mathlib.Tactic.ByContra
import Mathlib.Data.List.Induction
import Mathlib.Data.List.Nodup

/-!
# C57: rotating, merging and marking gates
-/
namespace Verif.Library

variable {X Y N : Nat} {T : Type}

/-! ## Specification -/

/-- The cell in column `x` and row `y`, if there is one. -/
def Gate.cell (g : Gate X Y T) (x y : Nat) : Option T :=
  if h : x < X ∧ y < Y then some (g ⟨y, h.2⟩ ⟨x, h.1⟩) else none

/-- The last non-empty cell of a stack of cells, or the empty cell. -/
def topmost (empty : T) (isEmpty : T → Bool) : List T → T
  | [] => empty
  | v :: vs => if (vs.all isEmpty) = true then (if isEmpty v then empty else v) else topmost empty isEmpty vs

/-! ## Lemmas -/

theorem cell_get (g : Gate X Y T) (x y : Nat) : g.cell x y = g.get y x := by
  unfold Gate.cell Gate.get
  by_cases h : x < X ∧ y < Y
  · rw [dif_pos h, dif_pos h.symm]
  · rw [dif_neg h, dif_neg (fun h' => h h'.symm)]

theorem cell_ext {g h : Gate X Y T} (e : ∀ x y, g.cell x y = h.cell x y) : g = h := by
  funext i j
  have := e j.val i.val
  simpa [Gate.cell, i.isLt, j.isLt] using this

theorem mem_iterations {x y : Nat} : (x, y) ∈ iterations X Y ↔ x < X ∧ y < Y := by simp [iterations]

theorem foldlM_none {α β : Type} (f : β → α → Option β) (a : α) (ha : ∀ b, f b a = none) :
    ∀ (l : List α) (b : β), a ∈ l → l.foldlM f b = none
  | c :: l, b, h => by
    rw [List.foldlM_cons]
    cases e : f b c with
    | none => rfl
    | some b' =>
      simp only [Option.bind_eq_bind, Option.bind_some]
      rcases List.mem_cons.1 h with rfl | h'
      · rw [ha] at e; simp at e
      · exact foldlM_none f a ha l b' h'

theorem set_cell {g g' : Gate X Y T} {r c : Nat} {v : T} (h : g.set r c v = some g') (x y : Nat) :
    g'.cell x y = if x = c ∧ y = r then some v else g.cell x y := by
  unfold Gate.set at h
  split_ifs at h with hb
  simp only [Option.some.injEq] at h
  subst h
  unfold Gate.cell
  by_cases hh : x < X ∧ y < Y
  · rw [dif_pos hh, dif_pos hh]
    by_cases e : x = c ∧ y = r
    · simp only [e.1, e.2, and_self, if_true]
    · rw [if_neg e]
      simp only [show ¬ (y = r ∧ x = c) from fun e' => e e'.symm, if_false]
  · rw [dif_neg hh, dif_neg hh, if_neg]
    rintro ⟨rfl, rfl⟩
    exact hh hb.symm

theorem transpose_fold (g : Gate N N T) : ∀ (l : List (Nat × Nat)) (tr : Gate N N T), (∀ p ∈ l, p.1 < N ∧ p.2 < N) →
    ∃ r, l.foldlM (fun trans p => (g.get p.1 p.2).bind (trans.set p.2 p.1)) tr = some r ∧
      ∀ x y, r.cell x y = if (x, y) ∈ l then g.cell y x else tr.cell x y
  | [], tr, _ => ⟨tr, rfl, by simp⟩
  | p :: l, tr, h => by
    obtain ⟨h1, h2⟩ := h p (by simp)
    obtain ⟨v, hv⟩ : ∃ v, g.get p.1 p.2 = some v := by simp [Gate.get, h1, h2]
    obtain ⟨tr', ht⟩ : ∃ t, tr.set p.2 p.1 v = some t := by simp [Gate.set, h1, h2]
    obtain ⟨r, hr, hc⟩ := transpose_fold g l tr' (fun q hq => h q (by simp [hq]))
    refine ⟨r, ?_, fun x y => ?_⟩
    · rw [List.foldlM_cons]
      simp only [hv, Option.bind_some, ht, Option.bind_eq_bind]
      exact hr
    · rw [hc]
      by_cases hm : (x, y) ∈ l
      · simp [hm]
      · rw [if_neg hm, set_cell ht]
        by_cases e : x = p.1 ∧ y = p.2
        · rw [if_pos e, if_pos (by rw [e.1, e.2]; exact List.mem_cons_self ..), cell_get, e.1, e.2, hv]
        · rw [if_neg e, if_neg]
          simp only [List.mem_cons, hm, or_false]
          rintro rfl
          exact e ⟨rfl, rfl⟩

theorem transpose_cell (empty : T) (g : Gate N N T) :
    ∃ r, transpose empty g = some r ∧ ∀ x y, r.cell x y = g.cell y x := by
  obtain ⟨r, hr, hc⟩ := transpose_fold g (iterations N N) (emptyGate empty) (fun p hp => mem_iterations.1 hp)
  refine ⟨r, hr, fun x y => ?_⟩
  rw [hc]
  by_cases h : x < N ∧ y < N
  · rw [if_pos (mem_iterations.2 h)]
  · rw [if_neg (mt mem_iterations.1 h)]
    unfold Gate.cell
    rw [dif_neg h, dif_neg (fun h' => h h'.symm)]

theorem reverseColumns_cell (g : Gate X Y T) {x y : Nat} (hx : x < X) : (reverseColumns g).cell x y = g.cell (X - 1 - x) y := by
  unfold Gate.cell reverseColumns
  by_cases hy : y < Y
  · rw [dif_pos ⟨hx, hy⟩, dif_pos ⟨by omega, hy⟩]
    congr 2
    ext
    simp [Fin.rev]
    omega
  · rw [dif_neg (by simp [hy]), dif_neg (by simp [hy])]

theorem reverseRows_cell (g : Gate X Y T) {x y : Nat} (hy : y < Y) : (reverseRows g).cell x y = g.cell x (Y - 1 - y) := by
  unfold Gate.cell reverseRows
  by_cases hx : x < X
  · rw [dif_pos ⟨hx, hy⟩, dif_pos ⟨hx, by omega⟩]
    congr 2
    ext
    simp [Fin.rev]
    omega
  · rw [dif_neg (by simp [hx]), dif_neg (by simp [hx])]

theorem cell_none (g : Gate X Y T) {x y : Nat} (h : ¬ (x < X ∧ y < Y)) : g.cell x y = none := by simp [Gate.cell, h]

theorem rotate90_cell (empty : T) (g : Gate N N T) :
    ∃ r, rotate90 empty g = some r ∧ ∀ x y, x < N → y < N → r.cell x y = g.cell y (N - 1 - x) := by
  obtain ⟨r, hr, hc⟩ := transpose_cell empty g
  refine ⟨reverseColumns r, by simp [rotate90, hr], fun x y hx _ => ?_⟩
  rw [reverseColumns_cell _ hx, hc]

theorem rotate270_cell (empty : T) (g : Gate N N T) :
    ∃ r, rotate270 empty g = some r ∧ ∀ x y, x < N → y < N → r.cell x y = g.cell (N - 1 - y) x := by
  obtain ⟨r, hr, hc⟩ := transpose_cell empty (reverseColumns g)
  refine ⟨r, hr, fun x y _ hy => ?_⟩
  rw [hc, reverseColumns_cell _ hy]

theorem rotate180_cell (g : Gate X Y T) {x y : Nat} (hx : x < X) (hy : y < Y) :
    (rotate180 g).cell x y = g.cell (X - 1 - x) (Y - 1 - y) := by
  unfold rotate180
  rw [reverseColumns_cell _ hx, reverseRows_cell _ hy]

/-! ## Rotations -/

/-- C57: for square gates, `rotate_90` turns the gate clockwise: the cell in column `x` of row `y` moves to column
`N - 1 - y` of row `x`. -/
theorem C57_rotate_90 (empty : T) (g : Gate N N T) :
    ∃ r, rotate90 empty g = some r ∧ ∀ x y, x < N → y < N → r.cell (N - 1 - y) x = g.cell x y := by
  obtain ⟨r, hr, hc⟩ := rotate90_cell empty g
  refine ⟨r, hr, fun x y hx hy => ?_⟩
  rw [hc _ _ (by omega) hx]
  congr 1
  omega

/-- C57: `rotate_180` moves the cell in column `x` of row `y` to column `X - 1 - x` of row `Y - 1 - y`, also for gates that
are not square. -/
theorem C57_rotate_180 (g : Gate X Y T) {x y : Nat} (hx : x < X) (hy : y < Y) :
    (rotate180 g).cell (X - 1 - x) (Y - 1 - y) = g.cell x y := by
  rw [rotate180_cell g (by omega) (by omega)]
  congr 1 <;> omega

/-- C57: for square gates, `rotate_270` turns the gate counterclockwise. -/
theorem C57_rotate_270 (empty : T) (g : Gate N N T) :
    ∃ r, rotate270 empty g = some r ∧ ∀ x y, x < N → y < N → r.cell y (N - 1 - x) = g.cell x y := by
  obtain ⟨r, hr, hc⟩ := rotate270_cell empty g
  refine ⟨r, hr, fun x y hx hy => ?_⟩
  rw [hc _ _ hy (by omega)]
  congr 1
  omega

/-- C57: for square gates, rotating by 90 degrees twice is `rotate_180`, three times is `rotate_270`, and four times is the
identity; `rotate_270` undoes `rotate_90`, and `rotate_180` undoes itself. -/
theorem C57_rotations_compose (empty : T) (g : Gate N N T) :
    (rotate90 empty g >>= rotate90 empty) = some (rotate180 g) ∧
    (rotate90 empty g >>= rotate90 empty >>= rotate90 empty) = rotate270 empty g ∧
    (rotate90 empty g >>= rotate90 empty >>= rotate90 empty >>= rotate90 empty) = some g ∧
    (rotate90 empty g >>= rotate270 empty) = some g ∧ (rotate270 empty g >>= rotate90 empty) = some g ∧
    rotate180 (rotate180 g) = g := by
  obtain ⟨r1, e1, c1⟩ := rotate90_cell empty g
  obtain ⟨r2, e2, c2⟩ := rotate90_cell empty r1
  obtain ⟨r3, e3, c3⟩ := rotate90_cell empty r2
  obtain ⟨r4, e4, c4⟩ := rotate90_cell empty r3
  obtain ⟨s, es, cs⟩ := rotate270_cell empty g
  obtain ⟨s1, es1, cs1⟩ := rotate270_cell empty r1
  obtain ⟨t1, et1, ct1⟩ := rotate90_cell empty s
  have key : ∀ {a b : Gate N N T}, (∀ x y, x < N → y < N → a.cell x y = b.cell x y) → a = b := by
    intro a b h
    refine cell_ext (fun x y => ?_)
    by_cases hh : x < N ∧ y < N
    · exact h x y hh.1 hh.2
    · rw [cell_none _ hh, cell_none _ hh]
  have h2 : r2 = rotate180 g := key fun x y hx hy => by
    rw [c2 x y hx hy, c1 _ _ hy (by omega), rotate180_cell g hx hy]
  have h3 : r3 = s := key fun x y hx hy => by
    rw [c3 x y hx hy, h2, rotate180_cell g hy (by omega), cs x y hx hy]
    congr 1; omega
  have h4 : r4 = g := key fun x y hx hy => by
    rw [c4 x y hx hy, h3, cs _ _ hy (by omega)]
    congr 1; omega
  have h5 : s1 = g := key fun x y hx hy => by
    rw [cs1 x y hx hy, c1 _ _ (by omega) hx]
    congr 1; omega
  have h6 : t1 = g := key fun x y hx hy => by
    rw [ct1 x y hx hy, cs _ _ hy (by omega)]
    congr 1; omega
  have h7 : rotate180 (rotate180 g) = g := key fun x y hx hy => by
    rw [rotate180_cell _ hx hy, rotate180_cell _ (by omega) (by omega)]
    congr 1 <;> omega
  refine ⟨?_, ?_, ?_, ?_, ?_, h7⟩ <;> simp only [e1, e2, e3, e4, es, es1, et1, Option.bind_eq_bind, Option.bind_some]
  · rw [h2]
  · rw [h3]
  · rw [h4]
  · rw [h5]
  · rw [h6]

/-- C57: rotating a square gate does not lose, add or change cells. -/
theorem C57_rotation_keeps_cells (empty : T) (g : Gate N N T) (P : T → Prop) :
    ∃ r, rotate90 empty g = some r ∧
      ((∃ x y v, r.cell x y = some v ∧ P v) ↔ ∃ x y v, g.cell x y = some v ∧ P v) := by
  obtain ⟨r, hr, hc⟩ := C57_rotate_90 empty g
  obtain ⟨r', hr', hc'⟩ := rotate90_cell empty g
  rw [hr] at hr'
  obtain rfl : r = r' := by simpa using hr'
  have bound : ∀ {X Y : Nat} {g : Gate X Y T} {x y : Nat} {v : T}, g.cell x y = some v → x < X ∧ y < Y := by
    intro X Y g x y v h
    by_contra hh
    rw [cell_none _ hh] at h; simp at h
  refine ⟨r, hr, ⟨?_, ?_⟩⟩
  · rintro ⟨x, y, v, h, hp⟩
    obtain ⟨hx, hy⟩ := bound h
    exact ⟨_, _, v, by rw [← hc' x y hx hy]; exact h, hp⟩
  · rintro ⟨x, y, v, h, hp⟩
    obtain ⟨hx, hy⟩ := bound h
    exact ⟨_, _, v, by rw [hc x y hx hy]; exact h, hp⟩

/-- C57 is false of gates that are not square, e.g. of the 60 by 46 cells of the SiDB libraries: `rotate_90` and
`rotate_270` access the gate out of bounds. -/
theorem C57_non_square_rotation_undefined (empty : T) (g : Gate X Y T) (hX : 0 < X) (hY : 0 < Y) (h : X ≠ Y) :
    rotate90 empty g = none ∧ rotate270 empty g = none := by
  have key : ∀ g : Gate X Y T, transpose empty g = none := by
    intro g
    unfold transpose
    rcases Nat.lt_or_gt_of_ne h with hlt | hgt
    · refine foldlM_none _ (0, X) (fun b => ?_) _ _ (mem_iterations.2 ⟨hX, hlt⟩)
      simp [Gate.get]
    · refine foldlM_none _ (Y, 0) (fun b => ?_) _ _ (mem_iterations.2 ⟨hgt, hY⟩)
      simp [Gate.get]
  exact ⟨by simp [rotate90, key], key _⟩

example (g : Gate 60 46 Bool) : rotate90 false g = none := (C57_non_square_rotation_undefined _ g (by decide) (by decide) (by decide)).1

/-! ## Merging and marking -/

theorem topmost_append (empty : T) (isEmpty : T → Bool) (v : T) : ∀ l : List T,
    topmost empty isEmpty (l ++ [v]) = if isEmpty v then topmost empty isEmpty l else v
  | [] => by simp [topmost]
  | w :: l => by
    simp only [List.cons_append, topmost, List.all_append, List.all_cons, List.all_nil, Bool.and_true]
    rw [topmost_append empty isEmpty v l]
    cases hv : isEmpty v with
    | true => simp
    | false => simp

/-- One iteration of `merge`. -/
theorem merge_inner (isEmpty : T → Bool) (x y : Nat) (h : x < N ∧ y < N) (empty : T) (m0 : Gate N N T)
    (hm0 : m0.cell y x = some empty) : ∀ gs : List (Gate N N T),
    ∃ m', gs.foldlM (fun merged g => (g.get x y).bind (fun v => if isEmpty v then some merged else merged.set x y v)) m0 = some m' ∧
      m'.cell y x = some (topmost empty isEmpty (gs.filterMap (fun g => g.cell y x))) ∧
      ∀ x' y', ¬ (x' = y ∧ y' = x) → m'.cell x' y' = m0.cell x' y' := by
  intro gs
  induction gs using List.reverseRecOn with
  | nil => exact ⟨m0, rfl, by simpa [topmost] using hm0, fun _ _ _ => rfl⟩
  | append_singleton gs g ih =>
    obtain ⟨m', h1, h2, h3⟩ := ih
    obtain ⟨v, hv⟩ : ∃ v, g.get x y = some v := by simp [Gate.get, h]
    have hv' : g.cell y x = some v := by rw [cell_get, hv]
    have hf : (gs ++ [g]).filterMap (fun g => g.cell y x) = gs.filterMap (fun g => g.cell y x) ++ [v] := by
      simp [hv']
    rw [hf, topmost_append]
    cases he : isEmpty v with
    | true =>
      refine ⟨m', ?_, by simpa using h2, h3⟩
      rw [List.foldlM_append, h1]
      simp [hv, he]
    | false =>
      obtain ⟨m'', hs⟩ : ∃ m'', m'.set x y v = some m'' := by simp [Gate.set, h]
      refine ⟨m'', ?_, by rw [set_cell hs]; simp, fun x' y' hne => ?_⟩
      · rw [List.foldlM_append, h1]
        simp [hv, he, hs]
      · rw [set_cell hs, if_neg hne, h3 x' y' hne]

theorem iterations_nodup : (iterations X Y).Nodup := by
  unfold iterations
  refine List.nodup_flatMap.2 ⟨fun x _ => ?_, ?_⟩
  · exact List.nodup_range.map (fun a b h => by simpa using h)
  · refine List.nodup_range.pairwise_of_forall_ne ?_
    intro a _ b _ hab
    simp only [Function.onFun, List.disjoint_left, List.mem_map, List.mem_range]
    rintro ⟨p, q⟩ ⟨c, _, hc⟩ ⟨d, _, hd⟩
    simp only [Prod.mk.injEq] at hc hd
    exact hab (hc.1.trans hd.1.symm)

/-- C57: merging square gates puts on each position the cell of the last gate that has a non-empty cell there, and the
empty cell if there is none. -/
theorem C57_merge (empty : T) (isEmpty : T → Bool) (gates : List (Gate N N T)) :
    ∃ r, merge empty isEmpty gates = some r ∧
      ∀ x y, x < N → y < N → r.cell x y = some (topmost empty isEmpty (gates.filterMap (fun g => g.cell x y))) := by
  have main : ∀ (l : List (Nat × Nat)) (m0 : Gate N N T), l.Nodup → (∀ p ∈ l, p.1 < N ∧ p.2 < N) →
      (∀ p ∈ l, m0.cell p.2 p.1 = some empty) →
      ∃ r, l.foldlM (fun merged p => gates.foldlM
        (fun merged g => (g.get p.1 p.2).bind (fun v => if isEmpty v then some merged else merged.set p.1 p.2 v)) merged) m0 = some r ∧
        (∀ p ∈ l, r.cell p.2 p.1 = some (topmost empty isEmpty (gates.filterMap (fun g => g.cell p.2 p.1)))) ∧
        ∀ x y, (y, x) ∉ l → r.cell x y = m0.cell x y := by
    intro l
    induction l with
    | nil => intro m0 _ _ _; exact ⟨m0, rfl, by simp, fun _ _ _ => rfl⟩
    | cons p l ih =>
      intro m0 hn hb he
      obtain ⟨hp, hn'⟩ := List.nodup_cons.1 hn
      obtain ⟨m1, h1, h2, h3⟩ := merge_inner isEmpty p.1 p.2 (hb p (by simp)) empty m0 (he p (by simp)) gates
      have hne : ∀ q ∈ l, ¬ (q.2 = p.2 ∧ q.1 = p.1) := by
        rintro ⟨q1, q2⟩ hq ⟨e1, e2⟩
        simp only at e1 e2
        subst e1 e2
        exact hp hq
      obtain ⟨r, hr, h4, h5⟩ := ih m1 hn' (fun q hq => hb q (by simp [hq])) (fun q hq => by
        rw [h3 _ _ (hne q hq)]; exact he q (by simp [hq]))
      refine ⟨r, ?_, ?_, ?_⟩
      · rw [List.foldlM_cons, h1]; exact hr
      · intro q hq
        rcases List.mem_cons.1 hq with rfl | hq
        · rw [h5 _ _ hp, h2]
        · exact h4 q hq
      · intro x y hxy
        simp only [List.mem_cons, not_or] at hxy
        rw [h5 x y hxy.2, h3]
        rintro ⟨rfl, rfl⟩
        exact hxy.1 rfl
  obtain ⟨r, hr, h1, -⟩ := main (iterations N N) (emptyGate empty) iterations_nodup (fun p hp => mem_iterations.1 hp) (fun p hp => by
    have := mem_iterations.1 hp
    simp [Gate.cell, emptyGate, this])
  exact ⟨r, hr, fun x y hx hy => h1 (y, x) (mem_iterations.2 ⟨hy, hx⟩)⟩

/-- C57 is false of gates that are not square: `merge` accesses the gates out of bounds. -/
theorem C57_non_square_merge_undefined (empty : T) (isEmpty : T → Bool) (g : Gate X Y T) (gs : List (Gate X Y T))
    (hX : 0 < X) (hY : 0 < Y) (h : X ≠ Y) : merge empty isEmpty (g :: gs) = none := by
  unfold merge
  rcases Nat.lt_or_gt_of_ne h with hlt | hgt
  · refine foldlM_none _ (0, X) (fun b => ?_) _ _ (mem_iterations.2 ⟨hX, hlt⟩)
    simp [Gate.get]
  · refine foldlM_none _ (Y, 0) (fun b => ?_) _ _ (mem_iterations.2 ⟨hgt, hY⟩)
    simp [Gate.get]

/-- C57: `mark_cell` changes exactly the given cell, also in gates that are not square. -/
theorem C57_mark (g : Gate X Y T) (px py : Nat) (mark : T) (hx : px < X) (hy : py < Y) :
    ∃ r, markCell g px py mark = some r ∧ r.cell px py = some mark ∧
      ∀ x y, (x, y) ≠ (px, py) → r.cell x y = g.cell x y := by
  obtain ⟨r, hr⟩ : ∃ r, g.set py px mark = some r := by simp [Gate.set, hx, hy]
  refine ⟨r, hr, by rw [set_cell hr]; simp, fun x y hne => ?_⟩
  rw [set_cell hr, if_neg]
  rintro ⟨rfl, rfl⟩
  exact hne rfl

/-! ## Concrete cases -/

/-- An asymmetric gate: `[[1, 2, 0], [0, 3, 0], [0, 0, 4]]`. -/
def demo : Gate 3 3 Nat := fun i j => ([[1, 2, 0], [0, 3, 0], [0, 0, 4]].getD i []).getD j 0
def rows (g : Gate 3 3 Nat) : List (List Nat) := (List.finRange 3).map (fun i => (List.finRange 3).map (g i))

example : (rotate90 0 demo).map rows = some [[0, 0, 1], [0, 3, 2], [4, 0, 0]] := by decide +kernel
example : (rotate270 0 demo).map rows = some [[0, 0, 4], [2, 3, 0], [1, 0, 0]] := by decide +kernel
example : rows (rotate180 demo) = [[4, 0, 0], [0, 3, 0], [0, 2, 1]] := by decide +kernel
example : (merge 0 (· == 0) [demo, rotate180 demo]).map rows = some [[4, 2, 0], [0, 3, 0], [0, 2, 1]] := by decide +kernel

end Verif.Library
