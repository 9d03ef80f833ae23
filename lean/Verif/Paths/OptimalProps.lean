import Verif.Paths.Optimal
import Verif.Paths.Props
import Verif.Clocking.Props

/-!
# C23: optimality of A*

The implementation lowers the `f` value of a queued entry in place (`it->f = f`, a_star.hpp:264) without
restoring the heap. With the heap of libstdc++ the search then returns non-minimal paths even for unit
costs and the Manhattan distance (`C23_not_optimal`). It is optimal for every queue that does restore the
order (`C23_optimal_partial`), for breadth-first search (`C23_bfs_optimal_partial`) and on linearly
clocked layouts, where all paths have the same length (`C23_linear_schemes`).
-/
namespace Verif.Paths

open Verif.Layouts Verif.Clocking

/-! ## The general argument -/

section
variable {V K : Type} [DecidableEq V] [LinearOrder K] [AddCommMonoid K] [IsOrderedCancelAddMonoid K]

theorem loop_opt {q : Queue V K} (hq : q.Faithful) {P : Problem V K} (hc : Consistent P) (G : St V K → Prop)
    (h1 : ∀ st cur f rest, Full P st → G st → st.openList = (cur, f) :: rest → ∀ e ∈ st.openList, f ≤ e.2)
    (h2 : ∀ st cur f rest, Full P st → G st → st.openList = (cur, f) :: rest → G (st.next q P cur))
    (n : Nat) : ∀ (fuel : Nat) (st : St V K), Full P st → G st → ∀ r, loop q P n fuel st = some r → r ≠ [] →
      ∀ p, PathFromTo P.succs P.source P.target p → pathCost P.cost r ≤ pathCost P.cost p := by
  intro fuel
  induction fuel with
  | zero => intro st _ _ r hr; simp [loop] at hr
  | succ fuel ih =>
    intro st hf hg r hr hne p hp
    cases ho : st.openList with
    | nil => simp [loop, ho] at hr; exact absurd hr hne
    | cons e rest =>
      obtain ⟨cur, f⟩ := e
      have hmin := h1 st cur f rest hf hg ho
      by_cases hct : cur = P.target
      · have he : loop q P n (fuel + 1) st = walkBack st.cameFrom P.source n P.target [] := by
          simp [loop, ho, hct]
        obtain ⟨i1, -⟩ := hf.inv.close hq ho
        obtain ⟨path, hw, hsub, hcost, hb⟩ := walk_exists P (st.close q cur) i1.gsrc _ i1.ord cur
          (by simp [St.close])
        have hb' : walkBack st.cameFrom P.source n P.target [] =
            if path.length ≤ n then some (path ++ []) else none := by
          rw [← hct]; exact hb n []
        rw [he, hb'] at hr
        split at hr
        · simp at hr
          subst hr
          have := head_optimal hc hf ho hmin p P.source hf.inv.src (hct ▸ hp)
          rw [hf.inv.gsrc, zero_add] at this
          rw [hcost]
          exact this
        · simp at hr
      · have he : loop q P n (fuel + 1) st = loop q P n fuel (st.next q P cur) := by
          simp [loop, ho, hct, St.next, St.close]
        rw [he] at hr
        exact ih _ (hf.next hq hc ho hmin) (h2 st cur f rest hf hg ho) r hr hne p hp

theorem aStar_opt {q : Queue V K} (hq : q.Faithful) {P : Problem V K} (hc : Consistent P)
    (hpos : ∀ u, ∀ v ∈ P.succs u, 0 ≤ P.cost u v) (G : St V K → Prop)
    (h1 : ∀ st cur f rest, Full P st → G st → st.openList = (cur, f) :: rest → ∀ e ∈ st.openList, f ≤ e.2)
    (h2 : ∀ st cur f rest, Full P st → G st → st.openList = (cur, f) :: rest → G (st.next q P cur))
    (h0 : G ((St.init q P).next q P P.source))
    (fuel : Nat) (r : List V) (hr : aStar q P fuel = some r) (hne : r ≠ [])
    (p : List V) (hp : PathFromTo P.succs P.source P.target p) : pathCost P.cost r ≤ pathCost P.cost p := by
  have hposp : ∀ (p : List V) (a b : V), PathFromTo P.succs a b p → 0 ≤ pathCost P.cost p := by
    intro p
    induction p with
    | nil => intro a b _; exact le_refl _
    | cons c l ih =>
      intro a b h
      cases l with
      | nil => exact le_refl _
      | cons d l =>
        obtain ⟨k1, k2, k3⟩ := h
        rw [List.isChain_cons_cons] at k1
        rw [pathCost]
        exact add_nonneg (hpos c d k1.1) (ih d b ⟨k1.2, by simp, by simpa using k3⟩)
  obtain ⟨f1, f2, f3, ⟨f, f4⟩, f5⟩ := first_spec hq P
  unfold aStar at hr
  cases fuel with
  | zero => simp [loop] at hr
  | succ n =>
    by_cases ht : P.source = P.target
    · have he : loop q P (n + 1) (n + 1) (St.init q P) = some [P.source] := by
        simp [loop, f4, ht, walkBack]
      rw [he] at hr
      simp at hr; subst hr
      exact hposp p _ _ hp
    · have he : loop q P (n + 1) (n + 1) (St.init q P) =
          loop q P (n + 1) n ((St.init q P).next q P P.source) := by
        simp [loop, f4, ht, St.next, St.close]
      rw [he] at hr
      exact loop_opt hq hc G h1 h2 (n + 1) n _ (Full.first hq (hposp · _ _)) h0 r hr hne p hp

/-- A priority queue that always has a least entry in front, also after lowering the value of an entry. -/
structure Queue.MinFirst (q : Queue V K) (Valid : List (V × K) → Prop) : Prop where
  empty : Valid []
  push : ∀ l e, Valid l → Valid (q.push l e)
  pop : ∀ l, Valid l → Valid (q.pop l)
  update : ∀ l v f, Valid l → Valid (q.update l v f)
  front : ∀ e l, Valid (e :: l) → ∀ x ∈ e :: l, e.2 ≤ x.2

omit [IsOrderedCancelAddMonoid K] in
theorem fold_valid {q : Queue V K} {Valid : List (V × K) → Prop} (hv : q.MinFirst Valid) (P : Problem V K)
    (cur : V) : ∀ (l : List V) (st : St V K), Valid st.openList →
      Valid (l.foldl (St.explore q P cur) st).openList
  | [], _, h => h
  | v :: l, st, h => by
    rw [List.foldl_cons]
    refine fold_valid hv P cur l _ ?_
    rcases explore_maps q P cur st v with ⟨he, _⟩ | ⟨_, _, _, _, ho⟩
    · rw [he]; exact h
    · rw [ho]; split
      · exact hv.update _ _ _ h
      · exact hv.push _ _ h

/-- C23 (what is missing: the queue of the implementation does not satisfy the hypothesis `hv`, see
`C23_not_optimal`). With a queue that keeps a least entry in front, with a consistent distance function
and non-negative costs, no path is cheaper than the one `a_star` returns. -/
theorem C23_optimal_partial (q : Queue V K) (hq : q.Faithful) (Valid : List (V × K) → Prop)
    (hv : q.MinFirst Valid) (P : Problem V K) (hc : Consistent P)
    (hpos : ∀ u, ∀ v ∈ P.succs u, 0 ≤ P.cost u v) (fuel : Nat) (r : List V)
    (hr : aStar q P fuel = some r) (hne : r ≠ []) (p : List V)
    (hp : PathFromTo P.succs P.source P.target p) : pathCost P.cost r ≤ pathCost P.cost p := by
  refine aStar_opt hq hc hpos (fun st => Valid st.openList) ?_ ?_ ?_ fuel r hr hne p hp
  · intro st cur f rest _ hg ho
    rw [ho] at hg ⊢
    exact hv.front (cur, f) rest hg
  · intro st cur f rest _ hg ho
    exact fold_valid hv P cur _ _ (hv.pop _ hg)
  · exact fold_valid hv P _ _ _ (by rw [(first_spec hq P).2.2.2.2]; exact hv.empty)

/-- The repair: rebuild the heap after the in-place update. -/
def repairedQueue (V K : Type) [DecidableEq V] [LinearOrder K] : Queue V K :=
  { stdQueue V K with
    update := fun l v f => (setFirst v f l).foldl (fun h e => (stdQueue V K).push h e) [] }

omit [AddCommMonoid K] [IsOrderedCancelAddMonoid K] in
private theorem foldl_push_perm (l : List (V × K)) : ∀ h : List (V × K),
    (l.foldl (fun h e => (stdQueue V K).push h e) h).Perm (l ++ h) := by
  induction l with
  | nil => intro h; simp
  | cons e l ih =>
    intro h
    rw [List.foldl_cons]
    refine (ih _).trans ?_
    refine (List.Perm.append_left l (stdQueue_faithful.push h e)).trans ?_
    exact List.perm_middle

omit [AddCommMonoid K] [IsOrderedCancelAddMonoid K] in
theorem repairedQueue_faithful : (repairedQueue V K).Faithful :=
  ⟨stdQueue_faithful.push, stdQueue_faithful.pop, fun l v f => by
    have := foldl_push_perm (setFirst v f l) []
    rw [List.append_nil] at this
    exact this⟩

omit [AddCommMonoid K] [IsOrderedCancelAddMonoid K] in
theorem repairedQueue_minFirst : (repairedQueue V K).MinFirst
    (HeapOrd (fun a b : V × K => decide (a.2 > b.2))) where
  empty := by intro i a b _ h; simp at h
  push l e h := heapPush_ord stdQueue_preord l e h
  pop l h := heapPop_ord stdQueue_preord l h
  update l v f _ := by
    show HeapOrd _ ((setFirst v f l).foldl _ [])
    have : ∀ (l h : List (V × K)), HeapOrd (fun a b : V × K => decide (a.2 > b.2)) h →
        HeapOrd (fun a b : V × K => decide (a.2 > b.2)) (l.foldl (fun h e => (stdQueue V K).push h e) h) := by
      intro l
      induction l with
      | nil => intro h hh; exact hh
      | cons e l ih => intro h hh; exact ih _ (heapPush_ord stdQueue_preord h e hh)
    exact this _ _ (by intro i a b _ h; simp at h)
  front e l h x hx := by
    have := heap_front stdQueue_preord e l h x hx
    simpa using this

end

/-! ## Breadth-first search with the heap of libstdc++ -/

section
variable {V : Type} [DecidableEq V]

/-- During breadth-first search the open entries span at most two levels. -/
private structure Level (cur : V) (f : Nat) (st : St V Nat) : Prop where
  closed : cur ∈ st.closed
  gcur : st.gVal cur = f
  heap : HeapOrd (fun a b : V × Nat => decide (a.2 > b.2)) st.openList
  vals : ∀ e ∈ st.openList, e.2 = st.gVal e.1 ∧ f ≤ e.2 ∧ e.2 ≤ f + 1

private theorem Level.fold (P : Problem V Nat) (hcost : ∀ u v, P.cost u v = 1) (hd : ∀ v, P.dist v = 0)
    (cur : V) (f : Nat) : ∀ (l : List V) (st : St V Nat), Level cur f st →
      Level cur f (l.foldl (St.explore (stdQueue V Nat) P cur) st)
  | [], _, h => h
  | v :: l, st, h => by
    rw [List.foldl_cons]
    refine Level.fold P hcost hd cur f l _ ?_
    rcases explore_maps (stdQueue V Nat) P cur st v with ⟨he, _⟩ | ⟨hnc, -, hg, hlt, ho⟩
    · rw [he]; exact h
    · rw [hcost, h.gcur] at hlt
      have hk : v ∉ st.keys := by
        intro hk
        have h1 := hlt hk
        obtain ⟨e, he, rfl⟩ := List.mem_map.1 hk
        have h2 := h.vals e he
        omega
      rw [if_neg hk, hcost, hd, h.gcur] at ho
      have hcv : cur ≠ v := fun e => hnc (e ▸ h.closed)
      refine ⟨by rw [explore_closed]; exact h.closed, by rw [hg, if_neg hcv]; exact h.gcur, ?_, ?_⟩
      · rw [ho]; exact heapPush_ord stdQueue_preord _ _ h.heap
      · intro e he
        rw [ho] at he
        rcases List.mem_cons.1 ((stdQueue_faithful.push st.openList _).mem_iff.1 he) with rfl | he
        · rw [hg, if_pos rfl, hcost, h.gcur]; exact ⟨rfl, by omega, by omega⟩
        · have : e.1 ≠ v := fun h' => hk (h' ▸ List.mem_map_of_mem he)
          rw [hg, if_neg this]
          exact h.vals e he

/-- C23 (what is missing: other distance functions). With unit costs and the constant distance zero,
`a_star` as implemented, on the heap of libstdc++, returns a shortest path. -/
theorem C23_bfs_optimal_partial (P : Problem V Nat) (hcost : ∀ u v, P.cost u v = 1) (hd : ∀ v, P.dist v = 0)
    (fuel : Nat) (r : List V) (hr : aStar (stdQueue V Nat) P fuel = some r) (hne : r ≠ []) (p : List V)
    (hp : PathFromTo P.succs P.source P.target p) : pathCost P.cost r ≤ pathCost P.cost p := by
  refine aStar_opt stdQueue_faithful ?_ ?_
    (fun st => HeapOrd (fun a b : V × Nat => decide (a.2 > b.2)) st.openList ∧
      ∃ c, ∀ e ∈ st.openList, c ≤ e.2 ∧ e.2 ≤ c + 1) ?_ ?_ ?_ fuel r hr hne p hp
  · intro u v _; rw [hd, hd]; omega
  · intro u v _; omega
  · intro st cur f rest _ hg ho
    rw [ho] at hg ⊢
    intro e he
    have := heap_front stdQueue_preord (cur, f) rest hg.1 e he
    simpa using this
  · intro st cur f rest hf hg ho
    obtain ⟨hh, c, hc⟩ := hg
    have hmin : ∀ e ∈ st.openList, f ≤ e.2 := by
      rw [ho] at hh ⊢
      intro e he
      have := heap_front stdQueue_preord (cur, f) rest hh e he
      simpa using this
    have hcf := hc (cur, f) (by rw [ho]; simp)
    have hfv := hf.opt.fval
    have hsub : ∀ e ∈ (stdQueue V Nat).pop st.openList, e ∈ st.openList := by
      intro e he
      rw [ho] at he ⊢
      exact List.mem_cons_of_mem _ ((stdQueue_faithful.pop _ _).mem_iff.1 he)
    have L : Level cur f (st.close (stdQueue V Nat) cur) := by
      refine ⟨by simp [St.close], ?_, heapPop_ord stdQueue_preord _ hh, ?_⟩
      · have := hfv (cur, f) (by rw [ho]; simp)
        rw [hd] at this
        exact this.symm
      · intro e he
        have he' := hsub e he
        have h1 := hfv e he'
        rw [hd] at h1
        exact ⟨h1, hmin e he', by have := hc e he'; dsimp only at hcf; omega⟩
    have := Level.fold P hcost hd cur f (P.succs cur) _ L
    exact ⟨this.heap, f, fun e he => (this.vals e he).2⟩
  · obtain ⟨f1, f2, f3, f4, f5⟩ := first_spec (stdQueue_faithful (V := V) (K := Nat)) P
    have L : Level P.source 0 ((St.init (stdQueue V Nat) P).close (stdQueue V Nat) P.source) := by
      refine ⟨by simp [St.close], rfl, ?_, ?_⟩
      · rw [f5]; intro i a b _ h; simp at h
      · rw [f5]; simp
    have := Level.fold P hcost hd P.source 0 (P.succs P.source) _ L
    exact ⟨this.heap, 0, fun e he => (this.vals e he).2⟩

end

/-! ## Layouts -/

/-- A permitted step leads to a neighbouring column. -/
theorem move_xy {l : RLayout} {cr : Bool} {t u v : Coord} (hm : Move l cr t u v) :
    ∃ n ∈ l.neighbours u, v.x = n.x ∧ v.y = n.y := by
  obtain ⟨n, hn, -, -, hv⟩ := hm
  refine ⟨n, hn, ?_⟩
  have e1 : (Cart.below n).x = n.x ∧ (Cart.below n).y = n.y := by
    unfold Cart.below; constructor <;> split_ifs <;> rfl
  rcases hv with rfl | ⟨-, rfl, -⟩
  · exact e1
  · rw [← e1.1, ← e1.2]; exact above_xy _ _

/-- On a Cartesian layout it moves by at most one in one direction. -/
theorem move_cart {l : RLayout} (ht : l.tp = .cart) {cr : Bool} {t u v : Coord} (hm : Move l cr t u v) :
    ((u.x : Int) - v.x).natAbs + ((u.y : Int) - v.y).natAbs ≤ 1 := by
  obtain ⟨n, hn, hx, hy⟩ := move_xy hm
  have hadj : n ∈ Cart.adjacentCoordinates l.m u := by
    unfold RLayout.neighbours at hn
    rw [ht] at hn
    split at hn
    · exact (List.mem_filter.1 hn).1
    · exact hn
  rw [hx, hy]
  simp only [Cart.adjacentCoordinates, List.mem_filter, List.mem_cons, List.not_mem_nil, or_false, bne_iff_ne,
    Cart.north, Cart.east, Cart.south, Cart.west] at hadj
  obtain ⟨h1, h2⟩ := hadj
  rcases h1 with rfl | rfl | rfl | rfl <;> split_ifs <;> (try dsimp only) <;> omega

/-- The Manhattan distance is consistent for unit costs on Cartesian layouts. -/
theorem manhattan_step {l : RLayout} (ht : l.tp = .cart) {cr : Bool} {t u v : Coord} (w : Coord)
    (hm : Move l cr t u v) : manhattan u w ≤ 1 + manhattan v w := by
  have := move_cart ht hm
  unfold manhattan
  omega

theorem pathCost_unit : ∀ p : List Coord, pathCost unitCost p = p.length - 1
  | [] => rfl
  | [_] => rfl
  | u :: v :: l => by rw [pathCost, pathCost_unit (v :: l)]; simp [unitCost]; omega

/-- C23 (disagreement). With the default distance and cost functions on an obstructed Cartesian layout,
`a_star` returns a path of eleven steps although there is one of nine; `a_star_distance` is thus not the
length of a shortest path. -/
theorem C23_not_optimal : ∃ (l : RLayout) (source target : Coord) (r p : List Coord),
    l.tp = .cart ∧ l.scheme = none ∧ InBounds l.m source ∧ InBounds l.m target ∧
    aStarLayout (stdQueue Coord Nat) l false unitCost manhattan source target 22 = some r ∧
    p.IsChain (fun u v => v ∈ l.succs false target u) ∧ p.head? = some source ∧ p.getLast? = some target ∧
    p.length = 10 ∧ r.length = 12 ∧ aStarDistance (stdQueue Coord Nat) l source target 22 = some 11 := by
  refine ⟨⟨.cart, ⟨2, 6, 0⟩, none, fun c => decide ((c.x, c.y) ∈ [(1, 1), (1, 5), (2, 5)]), fun _ _ => false,
    fun _ _ => false⟩, ⟨1, 0, 0, false⟩, ⟨2, 6, 0, false⟩, ?_⟩
  refine ⟨_, [⟨1, 0, 0, false⟩, ⟨0, 0, 0, false⟩, ⟨0, 1, 0, false⟩, ⟨0, 2, 0, false⟩, ⟨0, 3, 0, false⟩,
    ⟨0, 4, 0, false⟩, ⟨0, 5, 0, false⟩, ⟨0, 6, 0, false⟩, ⟨1, 6, 0, false⟩, ⟨2, 6, 0, false⟩], rfl, rfl, by decide,
    by decide, rfl, by decide, by decide, by decide, by decide, by decide +kernel, by decide +kernel⟩

/-- C23 (what is missing: the queue has to be repaired). On Cartesian layouts, with unit costs and the
Manhattan distance, rebuilding the heap after an update would make `a_star` return shortest paths. -/
theorem C23_repaired_optimal_partial (l : RLayout) (ht : l.tp = .cart) (crossings : Bool) (source target : Coord)
    (fuel : Nat) (r : List Coord) (hne : r ≠ [])
    (hr : aStarLayout (repairedQueue Coord Nat) l crossings unitCost manhattan source target fuel = some r)
    (p : List Coord) (hp : p.IsChain (Move l crossings target)) (hs : p.head? = some source)
    (htg : p.getLast? = some target) : r.length ≤ p.length := by
  have h := C23_optimal_partial (repairedQueue Coord Nat) repairedQueue_faithful _ repairedQueue_minFirst
    (⟨l.succs crossings target, unitCost, fun v => manhattan v target, source, target⟩ : Problem Coord Nat)
    (fun u v hv => manhattan_step ht target ((mem_succs _ _ _ _ _).1 hv)) (fun u v _ => Nat.zero_le _) fuel r hr hne p
    ⟨hp.imp (fun a b h => (mem_succs _ _ _ _ _).2 h), hs, htg⟩
  rw [pathCost_unit, pathCost_unit] at h
  have : p ≠ [] := by rintro rfl; simp at hs
  have := List.length_pos_iff.2 this
  omega

/-- C23. On layouts clocked by COLUMNAR, ROW, 2DDWAVE or 2DDWAVEHEX, `a_star` as implemented returns
shortest paths for all costs and distance functions: all paths to the target have the same length. -/
theorem C23_linear_schemes {K : Type} [LinearOrder K] [AddCommMonoid K] (q : Queue Coord K) (hq : q.Faithful)
    (l : RLayout) (ht : l.tp = .cart) (n : NumClks) (s : Scheme)
    (hsch : l.scheme = some s)
    (hs : s = columnarClocking .cart n ∨ s = rowClocking .cart n ∨ s = twoddwaveClocking .cart n ∨
      s = twoddwaveHexClocking .cart n) (hX : l.m.X < 2^31 - 1) (hY : l.m.Y < 2^31 - 1) (crossings : Bool)
    (cost dist : Coord → Coord → K) (source target : Coord) (hsrc : InBounds l.m source) (fuel : Nat)
    (r : List Coord) (hr : aStarLayout q l crossings cost dist source target fuel = some r) (hne : r ≠ [])
    (p : List Coord) (hp : p.IsChain (Move l crossings target)) (hps : p.head? = some source)
    (hpt : p.getLast? = some target) : r.length = p.length := by
  have hclk : ∀ u v, Move l crossings target u v → (s.clock u + 1) % s.numClocks = s.clock ⟨v.x, v.y, 0, false⟩ := by
    intro u v hm
    obtain ⟨w, hw, hx, hy⟩ := move_xy hm
    unfold RLayout.neighbours at hw
    rw [hsch] at hw
    have h2 := (List.mem_filter.1 hw).2
    have h3 : (s.clock u + 1) % s.numClocks = s.clock w := by
      unfold isOutgoingClocked at h2
      split at h2
      · simp at h2
      · simpa using h2
    rw [h3, hx, hy]
    have c1 := C10_linear_closed_form .cart n w
    have c2 := C10_linear_closed_form .cart n ⟨w.x, w.y, 0, false⟩
    have c3 := C10_linear_closed_form .cart .four w
    have c4 := C10_linear_closed_form .cart .four ⟨w.x, w.y, 0, false⟩
    rcases hs with rfl | rfl | rfl | rfl
    · rw [c1.1, c2.1]
    · rw [c1.2.1, c2.2.1]
    · rw [c1.2.2.1, c2.2.2.1]
    · simp only [twoddwaveHexClocking]
      rw [c3.2.2.1, c4.2.2.1]
  have hpot : ∃ f : Coord → Nat, ∀ u v, Move l crossings target u v → f v = f u + 1 := by
    rcases hs with rfl | rfl | rfl | rfl
    · refine ⟨fun c => c.x, fun b e h => ?_⟩
      show e.x = b.x + 1
      have h1 := move_cart ht h
      have h2 := hclk b e h
      rw [(C10_linear_closed_form .cart n b).1, (C10_linear_closed_form .cart n _).1] at h2
      cases n <;> simp only [columnarClocking, NumClks.val] at h2 <;> omega
    · refine ⟨fun c => c.y, fun b e h => ?_⟩
      show e.y = b.y + 1
      have h1 := move_cart ht h
      have h2 := hclk b e h
      rw [(C10_linear_closed_form .cart n b).2.1, (C10_linear_closed_form .cart n _).2.1] at h2
      cases n <;> simp only [rowClocking, NumClks.val] at h2 <;> omega
    · refine ⟨fun c => c.x + c.y, fun b e h => ?_⟩
      show e.x + e.y = b.x + b.y + 1
      have h1 := move_cart ht h
      have h2 := hclk b e h
      rw [(C10_linear_closed_form .cart n b).2.2.1, (C10_linear_closed_form .cart n _).2.2.1] at h2
      cases n <;> simp only [twoddwaveClocking, NumClks.val] at h2 <;> omega
    · refine ⟨fun c => c.x + c.y, fun b e h => ?_⟩
      show e.x + e.y = b.x + b.y + 1
      have h1 := move_cart ht h
      have h2 := hclk b e h
      simp only [twoddwaveHexClocking] at h2
      rw [(C10_linear_closed_form .cart .four b).2.2.1, (C10_linear_closed_form .cart .four _).2.2.1] at h2
      simp only [twoddwaveClocking, NumClks.val] at h2
      omega
  obtain ⟨f, hf⟩ := hpot
  have key : ∀ (p : List Coord) (a b : Coord), p.IsChain (Move l crossings target) → p.head? = some a →
      p.getLast? = some b → f b + 1 = f a + p.length := by
    intro p
    induction p with
    | nil => intro a b _ h; simp at h
    | cons c p ih =>
      intro a b hc ha hb
      simp at ha; subst ha
      cases p with
      | nil => simp at hb; subst hb; simp
      | cons d p =>
        rw [List.isChain_cons_cons] at hc
        have h1 := ih d b hc.2 (by simp) (by simpa using hb)
        have h2 := hf _ _ hc.1
        simp only [List.length_cons] at h1 ⊢
        omega
  have hv := C21_path_valid q hq l hX hY crossings cost dist source target hsrc fuel r hr hne
  have k1 := key r _ _ hv.2.2.2 hv.1 hv.2.1
  have k2 := key p _ _ hp hps hpt
  omega

-- the hypotheses are met: a path over the crossing of the demo layout
example : ∃ r, aStarLayout (stdQueue Coord Nat) demoLayout true unitCost manhattan ⟨0, 0, 0, false⟩ ⟨4, 2, 0, false⟩ 31 = some r ∧
    r ≠ [] ∧ demoLayout.scheme = some (twoddwaveClocking .cart .four) := by
  refine ⟨_, rfl, by decide +kernel, rfl⟩

-- the repaired queue finds the shorter path on the layout of `C23_not_optimal`
example : (aStarLayout (repairedQueue Coord Nat) ⟨.cart, ⟨2, 6, 0⟩, none,
    fun c => decide ((c.x, c.y) ∈ [(1, 1), (1, 5), (2, 5)]), fun _ _ => false, fun _ _ => false⟩ false unitCost
    manhattan ⟨1, 0, 0, false⟩ ⟨2, 6, 0, false⟩ 22).map List.length = some 10 := by decide +kernel

-- and so does breadth-first search with the queue as it is
example : (aStarLayout (stdQueue Coord Nat) ⟨.cart, ⟨2, 6, 0⟩, none,
    fun c => decide ((c.x, c.y) ∈ [(1, 1), (1, 5), (2, 5)]), fun _ _ => false, fun _ _ => false⟩ false unitCost
    (fun _ _ => 0) ⟨1, 0, 0, false⟩ ⟨2, 6, 0, false⟩ 22).map List.length = some 10 := by decide +kernel

end Verif.Paths
